import Verif.Gpu.Maxima
import Verif.Gpu.SmearFloat

/-!
# A drifting tone and the local-maximum search on the GPU (C157)

As `Tone.lean` and `Smear.lean`, with the search for local maxima (`Maxima.lean`) in the place of the
component search. The CPU version of this search misses such tones (`C17_misses_maximum`).
-/

namespace Bliss.Gpu

open Bliss.Drift Bliss.Float Bliss.Comp Bliss.Hit

section
variable {F : Type} [Sub F] [Div F] [LinearOrder F]

/-- A cell away from the borders, above the threshold and stronger than all others, is a maximum. -/
theorem strongest_isMaximum {s : Search F} {x : Coord} (hd : 1 ≤ s.dist)
    (hrow : s.dist ≤ x.1 ∧ x.1 + s.dist ≤ s.grid.drifts)
    (hcol : s.dist ≤ x.2 ∧ x.2 + s.dist ≤ s.grid.chans) (habove : s.thr < s.snr x)
    (hweak : ∀ y, s.grid.has y → y ≠ x → s.snr y < s.snr x) : IsMaximum s x := by
  refine ⟨⟨by omega, by omega, by omega, by omega⟩, habove, fun y h1 h2 h3 h4 => ?_⟩
  have hg : s.grid.has y := hood_inside hrow hcol ⟨h1, h2, h3, h4⟩
  refine ⟨hg, ?_⟩
  by_cases he : y = x
  · rw [he]; exact lt_irrefl _
  · exact (hweak y hg he).not_gt

/-- The search reports the strongest cell of the plane. -/
theorem maxima_strongest {s : Search F} {a0 : Protohit F} {G : Nat} (hd : 1 ≤ s.dist) (hG : 0 < G)
    {out : List (Protohit F)} (hrep : MaximaReports s a0 G out) {x : Coord}
    (hrow : s.dist ≤ x.1 ∧ x.1 + s.dist ≤ s.grid.drifts)
    (hcol : s.dist ≤ x.2 ∧ x.2 + s.dist ≤ s.grid.chans) (habove : s.thr < s.snr x)
    (hweak : ∀ y, s.grid.has y → y ≠ x → s.snr y < s.snr x) :
    ∃ a ∈ out, a.indexMax = x ∧ a.snr = s.snr x ∧ ∀ b ∈ out, b = a ∨ b.snr < a.snr := by
  obtain ⟨r1, r2, r3⟩ := C83_reports_maxima hG hrep
  obtain ⟨a, ha, hax⟩ := (r2 x).2 (strongest_isMaximum hd hrow hcol habove hweak)
  have hsnr : a.snr = s.snr x := by rw [(r3 a ha).snr, hax]
  refine ⟨a, ha, hax, hsnr, fun b hb => ?_⟩
  by_cases he : b.indexMax = a.indexMax
  · exact .inl (List.inj_on_of_nodup_map r1 hb ha he)
  · right
    rw [(r3 b hb).snr, hsnr]
    exact hweak _ ((r2 _).1 ⟨b, hb, rfl⟩).1 (by rw [← hax]; exact he)

/-- When it is the only cell above the threshold, it is the only protohit, two channels wide and centred on
itself, and no schedule has undefined behaviour. -/
theorem maxima_only {s : Search F} (a0 : Protohit F) {G : Nat} (hd : 1 ≤ s.dist) (hG : 0 < G) {x : Coord}
    (hrow : s.dist ≤ x.1 ∧ x.1 + s.dist ≤ s.grid.drifts)
    (hcol : s.dist ≤ x.2 ∧ x.2 + s.dist ≤ s.grid.chans) (habove : s.thr < s.snr x)
    (hclear : ∀ y, s.grid.has y → y ≠ x → s.snr y ≤ s.thr) :
    ¬ MaximaCanFault s a0 G ∧ (∃ out, MaximaReports s a0 G out) ∧
      ∀ out, MaximaReports s a0 G out → ∃ a, out = [a] ∧ a.indexMax = x ∧ a.snr = s.snr x ∧
        a.binwidth = 2 ∧ a.indexCenter = x := by
  have hweak : ∀ y, s.grid.has y → y ≠ x → s.snr y < s.snr x :=
    fun y hy hne => lt_of_le_of_lt (hclear y hy hne) habove
  have hone : ∀ y, IsMaximum s y → y = x := by
    intro y hy
    by_contra hne
    exact absurd hy.2.1 (not_lt.2 (hclear y hy.1 hne))
  have hlen : (maximaCells s).length ≤ 1 := by
    rw [maximaCells_length]
    refine length_le_one (List.nodup_range.filter _) fun n m hn hm => ?_
    have hc : 0 < s.grid.chans := by omega
    have key : ∀ n ∈ selected (maximumAt s) (s.grid.drifts * s.grid.chans), cellAt s.grid n = x :=
      fun n hn => hone _ (mem_selected.1 hn).2
    exact cellAt_inj hc ((key n hn).trans (key m hm).symm)
  have hroom : (1 : Int) ≤ (s.grid.drifts * s.grid.chans : Nat) / (s.dist * s.dist) := by
    rw [Int.le_ediv_iff_mul_le (by positivity), one_mul]
    push_cast
    exact mul_le_mul (by omega) (by omega) (by omega) (by omega)
  obtain ⟨f1, f2, _⟩ := C83_memory_safe_partial a0 hG (s := s) (by omega) (by omega)
  refine ⟨f1, f2, fun out hrep => ?_⟩
  obtain ⟨a, ha, ha1, ha2, ha3⟩ := maxima_strongest hd hG hrep hrow hcol habove hweak
  obtain ⟨r1, r2, r3⟩ := C83_reports_maxima hG hrep
  have hall : ∀ b ∈ out, b = a := by
    intro b hb
    have e := hone _ ((r2 _).1 ⟨b, hb, rfl⟩)
    exact List.inj_on_of_nodup_map r1 hb ha (by rw [e, ha1])
  have hnd : out.Nodup := List.Nodup.of_map _ r1
  have hout : out = [a] := by
    cases out with
    | nil => simp at ha
    | cons b w =>
      have hb := hall b (by simp)
      cases w with
      | nil => rw [hb]
      | cons c w =>
        have hc := hall c (by simp)
        rw [hb, hc] at hnd
        simp at hnd
  obtain ⟨lo, hi, e, hw, hcen⟩ := (r3 a ha).extent
  rw [ha1] at e hcen
  have hnot : ∀ f g, f ≠ x.2 → 0 ≤ f → f < s.grid.chans → ¬ Falls s x.1 f g := by
    intro f g hne h0 h1 h
    refine absurd h.1 (not_lt.2 (hclear (x.1, f) ⟨by simp only; omega, by simp only; omega, h0, h1⟩ fun h => hne ?_))
    rw [← h]
  have hlo : lo = x.2 - 1 := by
    by_contra hne
    have := e.lo_lt
    have := e.lo_ge
    exact hnot (lo + 1) _ (by omega) (by omega) (by omega) (e.below (lo + 1) (by omega) (by omega))
  have hhi : hi = x.2 + 1 := by
    by_contra hne
    have := e.lt_hi
    have := e.hi_le
    exact hnot (hi - 1) _ (by omega) (by omega) (by omega) (e.above (hi - 1) (by omega) (by omega))
  refine ⟨a, hout, ha1, ha2, by omega, ?_⟩
  rw [hcen, hlo, hhi, show x.2 + 1 + (x.2 - 1) = x.2 * 2 by ring, Int.mul_tdiv_cancel _ (by decide)]

end

/-! ## C157 -/

section
variable {F : Type} [Field F] [LinearOrder F] [IsStrictOrderedRing F]

/-- **C157, recovery.** The tone of C140: constant power on a straight line from channel `c₀`, drifting by
`d` channels, `d` being one of the searched drifts, every other sample weaker, no desmearing. Every result
of the CUDA integrator and the CUDA search for local maxima, under any schedule, contains a protohit at the
tone's start channel and drift with the tone's SNR, and every other protohit is weaker.

Missing: desmeared drifts, for which see `C157_smeared_tone_is_maximum_partial`, and float rounding, for which see
`C157_tone_is_maximum_float_partial`. -/
theorem C157_tone_is_maximum_partial (R24 D24 : Rounding 24) (D53 : Rounding 53) (hz : Fl → Fl)
    (ar : Arith F Fl) {inp : Input F} {grid : Nat → Int → F} {mask : Nat → Int → UInt8}
    (hin : Holds inp grid mask) (hview : DenseViews inp) {ro : RateOptions}
    (hT : 2 ≤ inp.timeSteps) (hT' : (inp.timeSteps : Int) - 1 ≤ 2 ^ 24) (hstep : ro.step ≠ 0)
    {c₀ d : Int} {i₀ : Nat}
    (hrange : ∀ i : Nat, (i : Int) < (ro.high - ro.low).tdiv ro.step →
      3 * |ro.low + i * ro.step| < 2 ^ 22 ∧ 0 ≤ c₀ + (ro.low + i * ro.step) ∧
        c₀ + (ro.low + i * ro.step) < inp.numChannels)
    (hplain : ro.desmear = false ∨ ∀ i : Nat, (i : Int) < (ro.high - ro.low).tdiv ro.step →
      |ro.low + i * ro.step| ≤ (inp.timeSteps : Int) - 1)
    (hd : d = ro.low + i₀ * ro.step) {ch : Nat → Int}
    (hline : FloatToneLine inp.timeSteps c₀ d ch) {P B : F}
    (htone : SteadyTone inp.numChannels inp.timeSteps grid ch P B)
    (noisePower floor : F) (o : Options F)
    (hnoise : 0 < driftNoise ar noisePower inp.timeSteps) (hdist : 1 ≤ o.dist)
    (hrow : o.dist ≤ i₀ ∧ i₀ + o.dist ≤ (ro.high - ro.low).tdiv ro.step)
    (hcol : o.dist ≤ c₀ ∧ c₀ + o.dist ≤ inp.numChannels)
    (habove : o.thr < (P - floor) / driftNoise ar noisePower inp.timeSteps) :
    ∃ rates, computeDrifts R24 hz inp.timeSteps ro = .ok rates ∧
      ∀ (G : Nat) (s' : Mem IAddr (ICell F)), 0 < G →
        Completes ProgStep (gpuIntegrate (F := F) (cudaOps D24 D53) inp.numChannels inp.timeSteps
          rates G) (integrateMem inp rates.length) s' →
        ∀ (G' : Nat) (a0 : Protohit F) (out : List (Protohit F)), 0 < G' →
          MaximaReports (toSearch ar (planeOf inp (gpuAcc s') rates) noisePower floor o) a0 G' out →
          ∃ a ∈ out, a.indexMax = ((i₀ : Int), c₀) ∧
            a.snr = (P - floor) / driftNoise ar noisePower inp.timeSteps ∧
            ∀ b ∈ out, b = a ∨ b.snr < a.snr := by
  obtain ⟨rates, h1, h2, _, h3⟩ := gpu_tone_cells R24 D24 D53 hz ar hin hview hT hT' hstep hrange
    hplain (by omega) hd ⟨by omega, by omega⟩ hline htone noisePower floor o hnoise
  refine ⟨rates, h1, fun G s' hG hs' G' a0 out hG' hrep => ?_⟩
  obtain ⟨k1, k2⟩ := h3 G s' hG hs'
  set s := toSearch ar (planeOf inp (gpuAcc s') rates) noisePower floor o with hs
  have hTF : (0 : F) < (inp.timeSteps : F) := by
    have : 0 < inp.timeSteps := by omega
    exact_mod_cast this
  have hmargin : (P - (P - B) / inp.timeSteps - floor) / driftNoise ar noisePower inp.timeSteps <
      (P - floor) / driftNoise ar noisePower inp.timeSteps := by
    have h0 : 0 < (P - B) / (inp.timeSteps : F) := div_pos (by linarith [htone.below]) hTF
    exact div_lt_div_of_pos_right (by linarith) hnoise
  have hdr : (s.grid.drifts : Int) = (ro.high - ro.low).tdiv ro.step := h2
  rw [← k1] at habove hmargin ⊢
  exact maxima_strongest (s := s) (x := ((i₀ : Int), c₀)) hdist hG' hrep ⟨hrow.1, by rw [hdr]; exact hrow.2⟩ hcol
    habove fun y hy hne => lt_of_le_of_lt (k2 y hy hne) hmargin

/-- **C157, nothing else.** If moreover the threshold is above what a path can have that misses the tone at one
time step, the search has no undefined behaviour under any schedule, it can return, and whenever it returns the
tone is the only protohit, centred on its start channel and reported as two channels wide.

Missing: desmeared drifts, for which see `C157_smeared_tone_is_maximum_partial`, and float rounding, for which see
`C157_tone_is_maximum_float_partial`. -/
theorem C157_only_the_tone_partial (R24 D24 : Rounding 24) (D53 : Rounding 53) (hz : Fl → Fl)
    (ar : Arith F Fl) {inp : Input F} {grid : Nat → Int → F} {mask : Nat → Int → UInt8}
    (hin : Holds inp grid mask) (hview : DenseViews inp) {ro : RateOptions}
    (hT : 2 ≤ inp.timeSteps) (hT' : (inp.timeSteps : Int) - 1 ≤ 2 ^ 24) (hstep : ro.step ≠ 0)
    {c₀ d : Int} {i₀ : Nat}
    (hrange : ∀ i : Nat, (i : Int) < (ro.high - ro.low).tdiv ro.step →
      3 * |ro.low + i * ro.step| < 2 ^ 22 ∧ 0 ≤ c₀ + (ro.low + i * ro.step) ∧
        c₀ + (ro.low + i * ro.step) < inp.numChannels)
    (hplain : ro.desmear = false ∨ ∀ i : Nat, (i : Int) < (ro.high - ro.low).tdiv ro.step →
      |ro.low + i * ro.step| ≤ (inp.timeSteps : Int) - 1)
    (hd : d = ro.low + i₀ * ro.step) {ch : Nat → Int}
    (hline : FloatToneLine inp.timeSteps c₀ d ch) {P B : F}
    (htone : SteadyTone inp.numChannels inp.timeSteps grid ch P B)
    (noisePower floor : F) (o : Options F)
    (hnoise : 0 < driftNoise ar noisePower inp.timeSteps) (hdist : 1 ≤ o.dist)
    (hrow : o.dist ≤ i₀ ∧ i₀ + o.dist ≤ (ro.high - ro.low).tdiv ro.step)
    (hcol : o.dist ≤ c₀ ∧ c₀ + o.dist ≤ inp.numChannels)
    (habove : o.thr < (P - floor) / driftNoise ar noisePower inp.timeSteps)
    (hclear : (P - (P - B) / inp.timeSteps - floor) / driftNoise ar noisePower inp.timeSteps ≤ o.thr) :
    ∃ rates, computeDrifts R24 hz inp.timeSteps ro = .ok rates ∧
      ∀ (G : Nat) (s' : Mem IAddr (ICell F)), 0 < G →
        Completes ProgStep (gpuIntegrate (F := F) (cudaOps D24 D53) inp.numChannels inp.timeSteps
          rates G) (integrateMem inp rates.length) s' →
        ∀ (G' : Nat) (a0 : Protohit F), 0 < G' →
          let s := toSearch ar (planeOf inp (gpuAcc s') rates) noisePower floor o
          ¬ MaximaCanFault s a0 G' ∧ (∃ out, MaximaReports s a0 G' out) ∧
          ∀ out, MaximaReports s a0 G' out → ∃ a, out = [a] ∧ a.indexMax = ((i₀ : Int), c₀) ∧
            a.snr = (P - floor) / driftNoise ar noisePower inp.timeSteps ∧ a.binwidth = 2 ∧
            a.indexCenter = ((i₀ : Int), c₀) := by
  obtain ⟨rates, h1, h2, _, h3⟩ := gpu_tone_cells R24 D24 D53 hz ar hin hview hT hT' hstep hrange
    hplain (by omega) hd ⟨by omega, by omega⟩ hline htone noisePower floor o hnoise
  refine ⟨rates, h1, fun G s' hG hs' G' a0 hG' => ?_⟩
  obtain ⟨k1, k2⟩ := h3 G s' hG hs'
  intro s
  have hdr : (s.grid.drifts : Int) = (ro.high - ro.low).tdiv ro.step := h2
  rw [← k1] at habove ⊢
  exact maxima_only (s := s) (x := ((i₀ : Int), c₀)) a0 hdist hG' ⟨hrow.1, by rw [hdr]; exact hrow.2⟩ hcol
    habove fun y hy hne => (k2 y hy hne).trans hclear

/-- **C157, fast tones.** The tone of C156, which drifts by `w` channels per time step and whose power is
spread over them, with desmearing on and the other samples at most `level`, which may be above the noise floor:
the CUDA search for local maxima reports it too, and every other protohit is weaker.

Missing: as for C156. -/
theorem C157_smeared_tone_is_maximum_partial (R24 D24 : Rounding 24) (D53 : Rounding 53) (hz : Fl → Fl)
    (ar : Arith F Fl) {inp : Input F} {grid : Nat → Int → F} {mask : Nat → Int → UInt8}
    (hin : Holds inp grid mask) (hview : DenseViews inp) {ro : RateOptions}
    (hT : 2 ≤ inp.timeSteps) (hT' : (inp.timeSteps : Int) - 1 ≤ 2 ^ 24) (hstep : ro.step ≠ 0)
    (hdes : ro.desmear = true) {c₀ d : Int} {i₀ w : Nat} {most : Int} (hmost : 1 ≤ most ∧ most ≤ 2 ^ 24)
    (hrange : ∀ i : Nat, (i : Int) < (ro.high - ro.low).tdiv ro.step →
      3 * |ro.low + i * ro.step| < 2 ^ 22 ∧ |ro.low + i * ro.step| ≤ most * ((inp.timeSteps : Int) - 1) ∧
        2 * most ≤ c₀ + (ro.low + i * ro.step) ∧ c₀ + (ro.low + i * ro.step) + 2 * most ≤ inp.numChannels)
    (hmiddle : 2 * most ≤ c₀ ∧ c₀ + 2 * most ≤ inp.numChannels)
    (hd : d = ro.low + i₀ * ro.step) (hw : ChannelsPerStep inp.timeSteps d w) {ch : Nat → Int}
    (hline : FloatToneLine inp.timeSteps c₀ d ch) {P floor level : F}
    (hle : floor ≤ level) (htone : SmearedTone inp.numChannels inp.timeSteps grid d w ch level fun _ => P)
    (noisePower : F) (o : Options F)
    (hnoise : ∀ k : Int, 1 ≤ k → k ≤ most → 0 < driftNoise ar noisePower (inp.timeSteps * k))
    (hfalls : NoiseFalls (fun k => driftNoise ar noisePower (inp.timeSteps * k)) most)
    (hsteady : NoiseSteady (fun k => driftNoise ar noisePower (inp.timeSteps * k)) most)
    (hclear : most * (level - floor) < P - level)
    (hdist : 1 ≤ o.dist) (hrow : o.dist ≤ i₀ ∧ i₀ + o.dist ≤ (ro.high - ro.low).tdiv ro.step)
    (hcol : o.dist ≤ c₀ ∧ c₀ + o.dist ≤ inp.numChannels)
    (habove : o.thr < (P - floor) / driftNoise ar noisePower (inp.timeSteps * w)) :
    ∃ rates, computeDrifts R24 hz inp.timeSteps ro = .ok rates ∧
      ∀ (G : Nat) (s' : Mem IAddr (ICell F)), 0 < G →
        Completes ProgStep (gpuIntegrate (F := F) (cudaOps D24 D53) inp.numChannels inp.timeSteps
          rates G) (integrateMem inp rates.length) s' →
        ∀ (G' : Nat) (a0 : Protohit F) (out : List (Protohit F)), 0 < G' →
          MaximaReports (toSearch ar (planeOf inp (gpuAcc s') rates) noisePower floor o) a0 G' out →
          ∃ a ∈ out, a.indexMax = ((i₀ : Int), c₀) ∧
            a.snr = (P - floor) / driftNoise ar noisePower (inp.timeSteps * w) ∧
            ∀ b ∈ out, b = a ∨ b.snr < a.snr := by
  have hwm : (w : Int) ≤ most := widths_le hT hw (fun i hi => (hrange i hi).2.1) (by omega) hd hmost.1
  obtain ⟨rates, h1, h2, h3⟩ := smeared_gpu_cells R24 D24 D53 hz ar hin hview hT hT' hstep hdes hmost hrange hmiddle
    hd hw hline hle htone noisePower o hnoise (fun D h1 h2 => (hfalls D w (by omega) (by omega) hwm).1) (by
      intro D h1 h2
      have h3 := (hfalls w D (by have := hw.pos; omega) (by omega) h2).2
      have h4 := hsteady w D (by have := hw.pos; omega) (by omega) h2
      push_cast at h3 h4
      have h5 := mul_le_mul_of_nonneg_left h4 (sub_nonneg.2 hle)
      have h6 := mul_lt_mul_of_pos_right hclear (sub_pos.2 h3)
      linarith) (by omega)
  refine ⟨rates, h1, fun G s' hG hs' G' a0 out hG' hrep => ?_⟩
  obtain ⟨hown, hweak⟩ := h3 G s' hG hs'
  set s := toSearch ar (planeOf inp (gpuAcc s') rates) noisePower floor o with hs
  have hdr : (s.grid.drifts : Int) = rates.length := rfl
  rw [← hown] at habove ⊢
  exact maxima_strongest (s := s) (x := ((i₀ : Int), c₀)) hdist hG' hrep
    ⟨hrow.1, by rw [hdr, h2]; exact hrow.2⟩ hcol habove hweak

end

variable {R : Rounding 24}

/-- **C157 in float arithmetic.** As `C157_tone_is_maximum_partial` and `C157_only_the_tone_partial`, with every
addition, subtraction and division of the sums and of the SNR rounded to 24 significant bits, in any rounding mode.
The other samples are not negative and at most half as strong as the tone, the noise floor too, and there are at most 512
time steps. The reported SNR is within 1/1024 of the exact one.

Missing: more time steps, and sums out of the exponent range of float. -/
theorem C157_tone_is_maximum_float_partial (R24 D24 : Rounding 24) (D53 : Rounding 53) (hz : Fl → Fl)
    (ar : Arith (F32 R) Fl) {inp : Input (F32 R)} {grid : Nat → Int → F32 R}
    {mask : Nat → Int → UInt8}
    (hin : Holds inp grid mask) (hview : DenseViews inp) {ro : RateOptions}
    (hT : 2 ≤ inp.timeSteps) (hT' : inp.timeSteps ≤ 512) (hstep : ro.step ≠ 0)
    {c₀ d : Int} {i₀ : Nat}
    (hrange : ∀ i : Nat, (i : Int) < (ro.high - ro.low).tdiv ro.step →
      3 * |ro.low + i * ro.step| < 2 ^ 22 ∧ 0 ≤ c₀ + (ro.low + i * ro.step) ∧
        c₀ + (ro.low + i * ro.step) < inp.numChannels)
    (hplain : ro.desmear = false ∨ ∀ i : Nat, (i : Int) < (ro.high - ro.low).tdiv ro.step →
      |ro.low + i * ro.step| ≤ (inp.timeSteps : Int) - 1)
    (hd : d = ro.low + i₀ * ro.step) {ch : Nat → Int}
    (hline : FloatToneLine inp.timeSteps c₀ d ch) {p : ℚ}
    (htone : SteadyTone inp.numChannels inp.timeSteps (fun t c => (grid t c).val) ch p (p / 2))
    (hpos : ∀ t < inp.timeSteps, ∀ c : Int, 0 ≤ c → c < inp.numChannels → 0 ≤ (grid t c).val)
    (noisePower floor : F32 R) (hfloor : 0 ≤ floor.val ∧ floor.val ≤ p / 2) (o : Options (F32 R))
    (hnoise : 0 < (driftNoise ar noisePower inp.timeSteps).val) (hdist : 1 ≤ o.dist)
    (hrow : o.dist ≤ i₀ ∧ i₀ + o.dist ≤ (ro.high - ro.low).tdiv ro.step)
    (hcol : o.dist ≤ c₀ ∧ c₀ + o.dist ≤ inp.numChannels) {exact : ℚ}
    (hexact : exact = (p - floor.val) / (driftNoise ar noisePower inp.timeSteps).val)
    (habove : o.thr.val < (p - p / (8 * inp.timeSteps) - floor.val) /
      (driftNoise ar noisePower inp.timeSteps).val) :
    ∃ rates, computeDrifts R24 hz inp.timeSteps ro = .ok rates ∧
      ∀ (G : Nat) (s' : Mem IAddr (ICell (F32 R))), 0 < G →
        Completes ProgStep (gpuIntegrate (F := F32 R) (cudaOps D24 D53) inp.numChannels inp.timeSteps
          rates G) (integrateMem inp rates.length) s' →
        ∀ (G' : Nat) (a0 : Protohit (F32 R)), 0 < G' →
          let s := toSearch ar (planeOf inp (gpuAcc s') rates) noisePower floor o
          (∀ out, MaximaReports s a0 G' out →
            ∃ a ∈ out, a.indexMax = ((i₀ : Int), c₀) ∧ |a.snr.val - exact| ≤ exact / 1024 ∧
              ∀ b ∈ out, b = a ∨ b.snr.val < a.snr.val) ∧
          ((p - p / (4 * inp.timeSteps) - floor.val) /
              (driftNoise ar noisePower inp.timeSteps).val ≤ o.thr.val →
            ¬ MaximaCanFault s a0 G' ∧ (∃ out, MaximaReports s a0 G' out) ∧
            ∀ out, MaximaReports s a0 G' out → ∃ a, out = [a] ∧ a.indexMax = ((i₀ : Int), c₀) ∧
              |a.snr.val - exact| ≤ exact / 1024 ∧ a.binwidth = 2 ∧ a.indexCenter = ((i₀ : Int), c₀)) := by
  obtain ⟨rates, h1, h2, h3⟩ := gpu_tone_cells_float R24 D24 D53 hz ar hin hview hT hT' hstep hrange hplain hd hline
    htone hpos noisePower floor hfloor o hnoise (by omega) ⟨by omega, by omega⟩ hexact habove
  refine ⟨rates, h1, fun G s' hG hs' G' a0 hG' => ?_⟩
  intro s
  obtain ⟨hab, hclose, hweak, hothers⟩ := h3 G s' hG hs'
  have hdr : (s.grid.drifts : Int) = rates.length := rfl
  refine ⟨fun out hrep => ?_, fun hclear => ?_⟩
  · obtain ⟨a, ha, k1, k2, k3⟩ := maxima_strongest (s := s) (x := ((i₀ : Int), c₀)) hdist hG' hrep
      ⟨hrow.1, by rw [hdr, h2]; exact hrow.2⟩ hcol hab hweak
    exact ⟨a, ha, k1, by rw [k2]; exact hclose, k3⟩
  · obtain ⟨f1, f2, f3⟩ := maxima_only (s := s) (x := ((i₀ : Int), c₀)) a0 hdist hG'
      ⟨hrow.1, by rw [hdr, h2]; exact hrow.2⟩ hcol hab fun y hy hne => not_lt.1 (hothers hclear y hy hne)
    refine ⟨f1, f2, fun out hrep => ?_⟩
    obtain ⟨a, k1, k2, k3, k4⟩ := f3 out hrep
    exact ⟨a, k1, k2, by rw [k3]; exact hclose, k4⟩

/-- **C157, fast tones in float arithmetic.** The tone of `C156_smeared_tone_float_partial` is reported by the CUDA
search for local maxima, with an SNR within 1/1024 of the exact one, and all else that is reported is weaker.

Missing: as for C156 in float. -/
theorem C157_smeared_tone_float_partial (R24 D24 : Rounding 24) (D53 : Rounding 53) (hz : Fl → Fl)
    (ar : Arith (F32 R) Fl) {inp : Input (F32 R)} {grid : Nat → Int → F32 R} {mask : Nat → Int → UInt8}
    (hin : Holds inp grid mask) (hview : DenseViews inp) {ro : RateOptions}
    (hT : 2 ≤ inp.timeSteps) (hstep : ro.step ≠ 0)
    (hdes : ro.desmear = true) {c₀ d : Int} {i₀ w : Nat} {most : Int} (hmost : 1 ≤ most)
    (hsmall : inp.timeSteps * most ≤ 512)
    (hrange : ∀ i : Nat, (i : Int) < (ro.high - ro.low).tdiv ro.step →
      3 * |ro.low + i * ro.step| < 2 ^ 22 ∧ |ro.low + i * ro.step| ≤ most * ((inp.timeSteps : Int) - 1) ∧
        2 * most ≤ c₀ + (ro.low + i * ro.step) ∧ c₀ + (ro.low + i * ro.step) + 2 * most ≤ inp.numChannels)
    (hmiddle : 2 * most ≤ c₀ ∧ c₀ + 2 * most ≤ inp.numChannels)
    (hd : d = ro.low + i₀ * ro.step) (hw : ChannelsPerStep inp.timeSteps d w) {ch : Nat → Int}
    (hline : FloatToneLine inp.timeSteps c₀ d ch) (noisePower floor : F32 R) {P : ℚ} (hP : 0 < P)
    (hfloor : 0 ≤ floor.val ∧ floor.val ≤ P / 2)
    (htone : SmearedTone inp.numChannels inp.timeSteps (fun t c => (grid t c).val) d w ch floor.val fun _ => P)
    (hpos : ∀ t < inp.timeSteps, ∀ c : Int, 0 ≤ c → c < inp.numChannels → 0 ≤ (grid t c).val)
    (o : Options (F32 R))
    (hlaw : NoiseLaw (fun k => (driftNoise ar noisePower (inp.timeSteps * k)).val) most)
    (hdist : 1 ≤ o.dist) (hrow : o.dist ≤ i₀ ∧ i₀ + o.dist ≤ (ro.high - ro.low).tdiv ro.step)
    (hcol : o.dist ≤ c₀ ∧ c₀ + o.dist ≤ inp.numChannels) (hthr : 0 ≤ o.thr.val) {exact : ℚ}
    (hexact : exact = (P - floor.val) / (driftNoise ar noisePower (inp.timeSteps * w)).val)
    (habove : o.thr.val * (1 + 1 / 512) < exact) :
    ∃ rates, computeDrifts R24 hz inp.timeSteps ro = .ok rates ∧
      ∀ (G : Nat) (s' : Mem IAddr (ICell (F32 R))), 0 < G →
        Completes ProgStep (gpuIntegrate (F := F32 R) (cudaOps D24 D53) inp.numChannels inp.timeSteps
          rates G) (integrateMem inp rates.length) s' →
        ∀ (G' : Nat) (a0 : Protohit (F32 R)) (out : List (Protohit (F32 R))), 0 < G' →
          MaximaReports (toSearch ar (planeOf inp (gpuAcc s') rates) noisePower floor o) a0 G' out →
          ∃ a ∈ out, a.indexMax = ((i₀ : Int), c₀) ∧ |a.snr.val - exact| ≤ exact / 1024 ∧
            ∀ b ∈ out, b = a ∨ b.snr.val < a.snr.val := by
  obtain ⟨rates, h1, h2, h3⟩ := smeared_gpu_cells_float R24 D24 D53 hz ar hin hview hT hstep hdes hmost hsmall hrange
    hmiddle hd hw hline noisePower floor hP hfloor htone hpos o hlaw (by omega) hthr hexact habove
  refine ⟨rates, h1, fun G s' hG hs' G' a0 out hG' hrep => ?_⟩
  obtain ⟨hab, hclose, hweak⟩ := h3 G s' hG hs'
  set s := toSearch ar (planeOf inp (gpuAcc s') rates) noisePower floor o with hsdef
  have hdr : (s.grid.drifts : Int) = rates.length := rfl
  obtain ⟨a, a1, a2, a3, a4⟩ := maxima_strongest (s := s) (x := ((i₀ : Int), c₀)) hdist hG' hrep
    ⟨hrow.1, by rw [hdr, h2]; exact hrow.2⟩ hcol hab hweak
  exact ⟨a, a1, a2, by rw [a3]; exact hclose, a4⟩

/-- The hypotheses of C157 hold of a tone of power 10 drifting by 2 channels in an empty band of 64 channels and 3
time steps; the integration completes, and the search returns the tone alone. -/
example (D24 : Rounding 24) (D53 : Rounding 53) (o : Options ℚ) (hdist : o.dist = 2) (hthr : o.thr = 8)
    (a0 : Protohit ℚ) :
    let ch : Nat → Int := fun t => 20 + t
    let grid : Nat → Int → ℚ := fun t c => if c = ch t then 10 else 0
    let inp := denseInput 3 64 grid (fun _ _ => 0)
    let ro : RateOptions := { low := -4, high := 5, step := 1, desmear := false }
    ∃ rates, computeDrifts D24 id inp.timeSteps ro = .ok rates ∧
      ∃ s', Completes ProgStep (gpuIntegrate (F := ℚ) (cudaOps D24 D53) inp.numChannels inp.timeSteps rates 4)
        (integrateMem inp rates.length) s' ∧
      ∃ a, MaximaReports (toSearch (unitArith ℚ) (planeOf inp (gpuAcc s') rates) 1 0 o) a0 4 [a] ∧
        a.indexMax = (6, 20) ∧ a.snr = 10 := by
  intro ch grid inp ro
  have hr : (ro.high - ro.low).tdiv ro.step = 9 := rfl
  have hT : inp.timeSteps = 3 := rfl
  have hN : inp.numChannels = 64 := rfl
  have hn : driftNoise (unitArith ℚ) 1 inp.timeSteps = 1 := rfl
  have hrange : ∀ i : Nat, (i : Int) < (ro.high - ro.low).tdiv ro.step →
        3 * |ro.low + i * ro.step| < 2 ^ 22 ∧ 0 ≤ 20 + (ro.low + i * ro.step) ∧
          20 + (ro.low + i * ro.step) < inp.numChannels := by
    intro i hi
    rw [hr] at hi
    have h1 : |ro.low + i * ro.step| ≤ 4 := by simp only [ro]; rw [abs_le]; omega
    rw [hN]
    refine ⟨by omega, ?_, ?_⟩ <;> simp only [ro] <;> omega
  have hline : FloatToneLine inp.timeSteps 20 2 ch := by
    refine ⟨fun t _ => ?_⟩
    simp only [ch, hT]
    push_cast
    rw [show (20 + (t : ℚ) - (20 + 2 * t / ((3 : ℚ) - 1))) = 0 by ring]
    norm_num
  have htone : SteadyTone inp.numChannels inp.timeSteps grid ch 10 0 := by
    refine ⟨fun t _ => ?_, fun t _ c _ _ hne => ?_, by norm_num⟩
    · simp [grid]
    · simp [grid, hne]
  obtain ⟨rates', h1, _, ⟨off, h2⟩, _⟩ := gpu_tone_cells D24 D24 D53 id (unitArith ℚ)
    (denseInput_holds 3 64 grid fun _ _ => 0) (denseInput_dense 3 64 grid fun _ _ => 0) (by decide)
    (by decide) (by decide) hrange (.inl rfl) (i₀ := 6) (by decide) rfl (by decide) hline htone 1 0 o
    (by rw [hn]; norm_num)
  obtain ⟨rates, h1', hall⟩ := C157_only_the_tone_partial D24 D24 D53 id (unitArith ℚ)
    (denseInput_holds 3 64 grid fun _ _ => 0) (denseInput_dense 3 64 grid fun _ _ => 0) (by decide)
    (by decide) (by decide) hrange (.inl rfl) (i₀ := 6) rfl hline htone 1 0 o (by rw [hn]; norm_num)
    (by omega) (by rw [hr, hdist]; decide) (by rw [hN, hdist]; decide) (by rw [hthr, hn]; norm_num)
    (by rw [hthr, hn, hT]; norm_num)
  rw [h1] at h1'
  obtain rfl := Outcome.ok.inj h1'
  obtain ⟨s', hs⟩ := (C81_gpu_drift_plane (denseInput_holds 3 64 grid fun _ _ => 0)
    (denseInput_dense 3 64 grid fun _ _ => 0) h2 (G := 4) (by decide)).2.2.1
  obtain ⟨_, ⟨out, hout⟩, hone⟩ := hall 4 s' (by decide) hs 4 a0 (by decide)
  obtain ⟨a, rfl, a1, a2, _⟩ := hone out hout
  exact ⟨_, h1, s', hs, a, hout, a1, by rw [a2, hn]; norm_num⟩

/-- A tone over two channels per time step among samples of 0 and 1, of which the noise floor is the mean 1/2. -/
example (R24 D24 : Rounding 24) (D53 : Rounding 53) (hz : Fl → Fl) (ar : Arith ℚ Fl) (har : RoundedRoot ar)
    (o : Options ℚ) (hdist : o.dist = 2) (hthr : o.thr = 5) :
    ∃ rates, computeDrifts R24 hz 2 { low := 0, high := 5, step := 1 } = .ok rates ∧
      (∃ s', Completes ProgStep (gpuIntegrate (F := ℚ) (cudaOps D24 D53) 64 2 rates 4)
        (integrateMem (denseInput 2 64 (fun t c => if InWindow 2 2 (20 + 2 * t) c then (16 : ℚ) else ((c + t) % 2 : Int))
          fun _ _ => 0) rates.length) s') ∧
      ∀ s', Completes ProgStep (gpuIntegrate (F := ℚ) (cudaOps D24 D53) 64 2 rates 4)
        (integrateMem (denseInput 2 64 (fun t c => if InWindow 2 2 (20 + 2 * t) c then (16 : ℚ) else ((c + t) % 2 : Int))
          fun _ _ => 0) rates.length) s' → ∀ a0 out,
        MaximaReports (toSearch ar (planeOf (denseInput 2 64
          (fun t c => if InWindow 2 2 (20 + 2 * t) c then (16 : ℚ) else ((c + t) % 2 : Int)) fun _ _ => 0) (gpuAcc s') rates) 1 (1 / 2) o)
          a0 4 out → ∃ a ∈ out, a.indexMax = (2, 20) ∧ ∀ b ∈ out, b = a ∨ b.snr < a.snr := by
  obtain ⟨f1, f2⟩ := C155_noise_falls har (noisePower := 1) one_pos (T := 2) (by norm_num) (most := 4)
    (by norm_num) (by norm_num)
  have f3 := C155_noise_steady har (noisePower := 1) one_pos (T := 2) (by norm_num) (most := 4)
    (by norm_num) (by norm_num)
  have hr : ∀ i : Nat, (i : Int) < ((5 : Int) - 0).tdiv 1 → 0 ≤ (0 : Int) + i * 1 ∧ (0 : Int) + i * 1 ≤ 4 := by
    intro i hi
    have : ((5 : Int) - 0).tdiv 1 = 5 := rfl
    omega
  have hbig := C157_smeared_tone_is_maximum_partial R24 D24 D53 hz ar
    (denseInput_holds 2 64 (fun t c => if InWindow 2 2 (20 + 2 * t) c then (16 : ℚ) else ((c + t) % 2 : Int)) fun _ _ => 0)
    (denseInput_dense _ _ _ _) (ro := { low := 0, high := 5, step := 1 }) (c₀ := 20) (d := 2) (i₀ := 2) (w := 2)
    (ch := fun t => 20 + 2 * t) (P := 16) (floor := 1 / 2) (level := 1) (le_refl 2) (by simp [denseInput]) (by decide) rfl
    (most := 4) (by norm_num) (by
      intro i hi
      obtain ⟨a1, a2⟩ := hr i hi
      dsimp only
      rw [abs_of_nonneg a1]
      simp only [denseInput]
      push_cast
      omega) (by simp [denseInput]) (by norm_num) ⟨by norm_num, .inr (by simp [denseInput]; norm_num)⟩
    ⟨by
      intro t _
      simp only [denseInput]
      push_cast
      rw [show (20 + 2 * (t : ℚ) - (20 + 2 * t / ((2 : ℚ) - 1))) = 0 by ring]
      norm_num⟩
    (by norm_num) ⟨fun t _ c _ _ h => if_pos h, fun t _ c _ _ h => (if_neg h).le.trans (by
      exact_mod_cast (show (c + t) % 2 ≤ 1 by omega)), fun t _ => by norm_num⟩ 1 o f2 f1 f3 (by norm_num)
    (by omega) (by rw [hdist]; decide) (by rw [hdist]; simp [denseInput]) (by
      rw [hthr]
      have hn := (abs_le.1 (noise_root har (noisePower := 1) one_pos (m := 4) (by norm_num) (by norm_num))).2
      have h4 : √(((4 : Int)) : ℝ) = 2 := by
        rw [show (((4 : Int)) : ℝ) = 2 ^ 2 by norm_num, Real.sqrt_sq (by norm_num)]
      rw [h4] at hn
      have hle : driftNoise ar 1 4 ≤ 1 := by
        have : ((driftNoise ar 1 4 : ℚ) : ℝ) ≤ 1 := by
          norm_num at hn
          linarith
        exact_mod_cast this
      have hpos := f2 2 (by norm_num) (by norm_num)
      simp only [denseInput]
      norm_num at hpos ⊢
      rw [lt_div_iff₀ hpos]
      linarith)
  obtain ⟨rates, off, h1, _, h3, _⟩ := driftSetup_of (N := 64) (T := 2) (o := { low := 0, high := 5, step := 1 })
    (B := 1398102) R24 (narrow D24 D53) hz (by norm_num) (by norm_num) (by norm_num)
    (fun d hd => C06_cuda_geometry_partial R24 D24 D53 (by omega) (by norm_num) (by norm_num)) (by decide)
    (by decide) (fun i hi => by
      obtain ⟨a1, a2⟩ := hr i hi
      dsimp only
      rw [abs_of_nonneg a1]
      omega)
  obtain ⟨rates', h1', hall⟩ := hbig
  obtain rfl : rates = rates' := by
    have h1'' : computeDrifts R24 hz 2 { low := 0, high := 5, step := 1 } = .ok rates' := h1'
    rw [h1] at h1''
    exact Outcome.ok.inj h1''
  refine ⟨rates, h1, (C81_gpu_drift_plane (denseInput_holds 2 64 _ fun _ _ => 0)
    (denseInput_dense 2 64 _ fun _ _ => 0) h3 (by decide)).2.2.1, fun s' hs' a0 out hrep => ?_⟩
  obtain ⟨a, a1, a2, _, a4⟩ := hall 4 s' (by decide) hs' 4 a0 out (by decide) hrep
  exact ⟨a, a1, a2, a4⟩

/-- The hypotheses are met, in every rounding mode, by a tone of power 10 that drifts by 2 channels
over 3 time steps in a band of 64 over a background of 1/8, with drifts -4, ..., 4 searched and a
threshold of 9.5; so the tone is all that is reported. -/
example (R R24 D24 : Rounding 24) (D53 : Rounding 53) (o : Options (F32 R)) (hdist : o.dist = 2)
    (hthr : o.thr.val = 19 / 2) (a0 : Protohit (F32 R)) :
    let ch : Nat → Int := fun t => 20 + t
    let grid : Nat → Int → F32 R := fun t c => if c = ch t then ⟨10⟩ else ⟨1 / 8⟩
    let inp := denseInput 3 64 grid (fun _ _ => 0)
    let ro : RateOptions := { low := -4, high := 5, step := 1, desmear := false }
    ∃ rates, computeDrifts R24 id inp.timeSteps ro = .ok rates ∧
      ∀ s', Completes ProgStep (gpuIntegrate (F := F32 R) (cudaOps D24 D53) inp.numChannels
          inp.timeSteps rates 4) (integrateMem inp rates.length) s' →
        let s := toSearch (unitArith32 R) (planeOf inp (gpuAcc s') rates) ⟨1⟩ ⟨0⟩ o
        (∃ out, MaximaReports s a0 4 out) ∧
          ∀ out, MaximaReports s a0 4 out → ∃ a, out = [a] ∧ a.indexMax = (6, 20) ∧ a.binwidth = 2 := by
  intro ch grid inp ro
  have hr : (ro.high - ro.low).tdiv ro.step = 9 := rfl
  have hT : inp.timeSteps = 3 := rfl
  have hN : inp.numChannels = 64 := rfl
  have hn : (driftNoise (unitArith32 R) ⟨1⟩ inp.timeSteps).val = 1 := rfl
  have hrange : ∀ i : Nat, (i : Int) < (ro.high - ro.low).tdiv ro.step →
        3 * |ro.low + i * ro.step| < 2 ^ 22 ∧ 0 ≤ 20 + (ro.low + i * ro.step) ∧
          20 + (ro.low + i * ro.step) < inp.numChannels := by
    intro i hi
    rw [hr] at hi
    have h1 : |ro.low + i * ro.step| ≤ 4 := by simp only [ro]; rw [abs_le]; omega
    rw [hN]
    refine ⟨by omega, ?_, ?_⟩ <;> simp only [ro] <;> omega
  have hline : FloatToneLine inp.timeSteps 20 2 ch := by
    refine ⟨fun t _ => ?_⟩
    simp only [ch, hT]
    push_cast
    rw [show (20 + (t : ℚ) - (20 + 2 * t / ((3 : ℚ) - 1))) = 0 by ring]
    norm_num
  have htone : SteadyTone inp.numChannels inp.timeSteps (fun t c => (grid t c).val) ch (10 : ℚ)
      (10 / 2) := by
    refine ⟨fun t _ => ?_, fun t _ c _ _ hne => ?_, by norm_num⟩
    · simp [grid]
    · simp only [grid, hne, if_false]; norm_num
  obtain ⟨rates, h1, h2⟩ := C157_tone_is_maximum_float_partial (R := R) R24 D24 D53 id (unitArith32 R)
    (denseInput_holds 3 64 grid fun _ _ => 0) (denseInput_dense 3 64 grid fun _ _ => 0)
    (ro := ro) (i₀ := 6) (c₀ := 20) (d := 2) (by simp [denseInput])
    (by simp [denseInput]) (by decide) hrange (.inl rfl) rfl hline htone
    (fun t _ c _ _ => by simp only [grid]; split <;> norm_num) ⟨1⟩ ⟨0⟩ ⟨le_refl _, by norm_num⟩ o
    (by rw [hn]; norm_num) (by omega) (by rw [hr, hdist]; decide) (by rw [hdist]; simp [denseInput])
    rfl (by rw [hthr, hn, hT]; norm_num)
  refine ⟨rates, h1, fun s' hs' => ?_⟩
  obtain ⟨_, k1, k2⟩ := (h2 4 s' (by decide) hs' 4 a0 (by decide)).2 (by rw [hthr, hn, hT]; norm_num)
  refine ⟨k1, fun out hout => ?_⟩
  obtain ⟨a, e1, e2, _, e3, _⟩ := k2 out hout
  exact ⟨a, e1, e2, e3⟩

/-- The tone of the example for `C156_smeared_tone_on_gpu_partial`, in float arithmetic of any rounding mode;
the integration completes. -/
example (R R24 D24 : Rounding 24) (D53 : Rounding 53) (hz : Fl → Fl) (ar : Arith (F32 R) Fl)
    (har : RoundedRoot (plainArith ar)) (o : Options (F32 R)) (hdist : o.dist = 2) (hthr : o.thr.val = 5) :
    let inp := denseInput 2 64 (fun t c => (⟨if InWindow 2 2 (20 + 2 * t) c then 16 else 0⟩ : F32 R)) fun _ _ => 0
    ∃ rates, computeDrifts R24 hz 2 { low := 0, high := 5, step := 1 } = .ok rates ∧
      (∃ s', Completes ProgStep (gpuIntegrate (F := F32 R) (cudaOps D24 D53) 64 2 rates 4)
        (integrateMem inp rates.length) s') ∧
      ∀ s', Completes ProgStep (gpuIntegrate (F := F32 R) (cudaOps D24 D53) 64 2 rates 4)
        (integrateMem inp rates.length) s' → ∀ a0 out,
        MaximaReports (toSearch ar (planeOf inp (gpuAcc s') rates) ⟨1⟩ ⟨0⟩ o) a0 4 out →
          ∃ a ∈ out, a.indexMax = (2, 20) ∧ ∀ b ∈ out, b = a ∨ b.snr.val < a.snr.val := by
  intro inp
  have hlaw := C155_noise_law har (noisePower := ⟨1⟩) one_pos (T := 2) (by norm_num) (most := 4) (by norm_num)
  have hr : ∀ i : Nat, (i : Int) < ((5 : Int) - 0).tdiv 1 → 0 ≤ (0 : Int) + i * 1 ∧ (0 : Int) + i * 1 ≤ 4 := by
    intro i hi
    have : ((5 : Int) - 0).tdiv 1 = 5 := rfl
    omega
  have hbig := C157_smeared_tone_float_partial R24 D24 D53 hz ar (inp := inp)
    (denseInput_holds 2 64 _ fun _ _ => 0)
    (denseInput_dense _ _ _ _) (ro := { low := 0, high := 5, step := 1 }) (c₀ := 20) (d := 2) (i₀ := 2) (w := 2)
    (ch := fun t => 20 + 2 * t) (le_refl 2) (by decide) rfl
    (most := 4) (by norm_num) (by simp [inp, denseInput]) (by
      intro i hi
      obtain ⟨a1, a2⟩ := hr i hi
      dsimp only
      rw [abs_of_nonneg a1]
      simp only [inp, denseInput]
      push_cast
      omega) (by simp [inp, denseInput]) (by norm_num) ⟨by norm_num, .inr (by simp [inp, denseInput]; norm_num)⟩
    ⟨by
      intro t _
      simp only [inp, denseInput]
      push_cast
      rw [show (20 + 2 * (t : ℚ) - (20 + 2 * t / ((2 : ℚ) - 1))) = 0 by ring]
      norm_num⟩ ⟨1⟩ ⟨0⟩ (P := 16) (by norm_num) (by norm_num)
    ⟨fun t _ c _ _ h => if_pos h, fun t _ c _ _ h => (if_neg h).le, fun t _ => by norm_num⟩
    (fun t _ c _ _ => by dsimp only; split <;> norm_num) o hlaw
    (by omega) (by rw [hdist]; decide) (by rw [hdist]; simp [inp, denseInput]) (by rw [hthr]; norm_num) rfl (by
      rw [hthr]
      have hn := (abs_le.1 (noise_root har (noisePower := 1) one_pos (m := 4) (by norm_num) (by norm_num))).2
      have h4 : √(((4 : Int)) : ℝ) = 2 := by
        rw [show (((4 : Int)) : ℝ) = 2 ^ 2 by norm_num, Real.sqrt_sq (by norm_num)]
      rw [h4] at hn
      have hle : (driftNoise ar ⟨1⟩ 4).val ≤ 1 := by
        have : (((driftNoise ar ⟨1⟩ 4).val : ℚ) : ℝ) ≤ 1 := by
          change ((driftNoise (plainArith ar) 1 4 : ℚ) : ℝ) ≤ 1
          norm_num at hn
          linarith
        exact_mod_cast this
      obtain ⟨c, _, hc⟩ := hlaw
      have hpos : 0 < (driftNoise ar ⟨1⟩ 4).val := (hc 2 (by norm_num) (by norm_num)).1
      simp only [inp, denseInput]
      norm_num
      rw [lt_div_iff₀ hpos]
      linarith)
  obtain ⟨rates, off, h1, _, h3, _⟩ := driftSetup_of (N := 64) (T := 2) (o := { low := 0, high := 5, step := 1 })
    (B := 1398102) R24 (narrow D24 D53) hz (by norm_num) (by norm_num) (by norm_num)
    (fun d hd => C06_cuda_geometry_partial R24 D24 D53 (by omega) (by norm_num) (by norm_num)) (by decide)
    (by decide) (fun i hi => by
      obtain ⟨a1, a2⟩ := hr i hi
      dsimp only
      rw [abs_of_nonneg a1]
      omega)
  obtain ⟨rates', h1', hall⟩ := hbig
  obtain rfl : rates = rates' := by
    have h1'' : computeDrifts R24 hz 2 { low := 0, high := 5, step := 1 } = .ok rates' := h1'
    rw [h1] at h1''
    exact Outcome.ok.inj h1''
  refine ⟨rates, h1, (C81_gpu_drift_plane (denseInput_holds 2 64 _ fun _ _ => 0)
    (denseInput_dense 2 64 _ fun _ _ => 0) h3 (by decide)).2.2.1, fun s' hs' a0 out hrep => ?_⟩
  obtain ⟨a, a1, a2, _, a4⟩ := hall 4 s' (by decide) hs' 4 a0 out (by decide) hrep
  exact ⟨a, a1, a2, a4⟩

end Bliss.Gpu
