import Verif.Hit.SurviveSmear

/-!
# The start frequency and the width of a smeared tone (C155)

The frequency of a hit is that of the middle of its cluster at the drift of its peak. For a tone over `w`
channels per time step the lines next to the tone's own overlap it in part, so the cluster is wider than one
channel; it stays within `w` channels of the tone's start.
-/

namespace Bliss.Hit

open Bliss.Drift Bliss.Comp Bliss.Float Bliss.Nd Bliss.Stat Bliss.Flag

variable {F : Type} [Field F] [LinearOrder F] [IsStrictOrderedRing F]

/-- The ends of a hit's band are cells at its drift above half the threshold, and its frequency is that of the
middle between them. -/
theorem hit_ends (R24 : Rounding 24) (R53 : Rounding 53) (hz : Fl → Fl)
    (ar : Arith F Fl) (fltMin : F) (junk : Coord → Int) (cc : Channel Fl) {inp : Input F}
    {grid : Nat → Int → F} {mask : Nat → Int → UInt8} (hin : Holds inp grid mask)
    (hview : inp.specOffset = 0 ∧ inp.rfiOffset = 0) {ro : RateOptions} (hT : 2 ≤ inp.timeSteps)
    (hT' : (inp.timeSteps : Int) - 1 ≤ 2 ^ 24) (hstep : ro.step ≠ 0) (hdes : ro.desmear = true)
    (hrange : ∀ i : Nat, (i : Int) < (ro.high - ro.low).tdiv ro.step →
      |ro.low + i * ro.step| < 2 ^ 22 ∧ 2 * |ro.low + i * ro.step| ≤ inp.numChannels)
    {d : Int} {i₀ w : Nat} (hi₀ : (i₀ : Int) < (ro.high - ro.low).tdiv ro.step)
    (hd : d = ro.low + i₀ * ro.step) (hw : ChannelsPerStep inp.timeSteps d w)
    (noisePower floor : F) (o : Options F) (hm : o.method = .connectedComponents)
    (hhalf : ∀ v : F, o.thr < v → o.thr / 2 < v) (hmin : ∀ v : F, o.thr < v → fltMin < v)
    {hs : List (Hit F Fl)}
    (hrun : driftSearch R24 R53 hz ar fltMin junk cc inp ro noisePower floor o = .ok hs) :
    ∃ off : Nat → Int, StraightPath d inp.timeSteps (2 ^ (-23 : ℤ) + 2 ^ (-51 : ℤ)) off ∧
      ∀ h ∈ hs, h.rateIndex = i₀ → ∃ lo : Int, 0 ≤ lo ∧ lo ≤ h.startFreqIndex ∧
        h.startFreqIndex ≤ lo + h.binwidth ∧ lo + h.binwidth < inp.numChannels ∧
        h.startFreqMHz = ar.add cc.fch1 (ar.mul cc.foff (ar.ofInt (lo + h.binwidth / 2))) ∧
        h.bandwidth = ar.toF (ar.mul (ar.ofInt h.binwidth) (ar.abs (ar.mul ar.million cc.foff))) ∧
        ∀ e : Int, e = lo ∨ e = lo + h.binwidth → o.thr / 2 <
          (pathSum grid w (path inp.numChannels inp.timeSteps (decide (0 ≤ d)) d w off e) / (inp.timeSteps : F) -
            floor) / driftNoise ar noisePower (inp.timeSteps * w) := by
  obtain ⟨a, rates, off, h1, h2, h3⟩ :=
    C07_defined_partial R24 R53 hz hin hview hT hT' hstep (by omega) hrange
  have hcd := computeDrifts_of h1
  have hget₀ := List.getElem?_eq_getElem (show i₀ < rates.length by omega)
  obtain ⟨_, g2, _, g4, g5⟩ := h3 i₀ _ hget₀
  rw [← hd] at g2
  rw [g2] at g4 g5
  have hw₀ : rates[i₀].desmear = w :=
    rate_bins hcd hdes hT hT' hget₀ (by have := hrange i₀ hi₀; omega) (by rw [← hd]; exact hw)
  obtain ⟨cs, hs', e1, e2, e3, _⟩ := hitSearch_covers ar fltMin junk cc (planeOf inp a rates)
    noisePower floor o hm (fun _ _ _ => lt_trans) (fun _ => lt_irrefl _) (by simp [planeOf]) hhalf hmin
  have hrun' : driftSearch R24 R53 hz ar fltMin junk cc inp ro noisePower floor o = .ok hs' := by
    simp only [driftSearch, h1, Outcome.bind_ok]; exact e2
  rw [hrun] at hrun'
  obtain rfl := Outcome.ok.inj hrun'
  refine ⟨off i₀, g4, fun h hh hrow => ?_⟩
  obtain ⟨j, hj, rfl⟩ := List.getElem_of_mem hh
  have hlen := e3.length_eq
  have hjc : j < cs.length := by omega
  have hdsc : Describes ar cc (planeOf inp a rates) noisePower floor o.thr cs[j] hs[j] :=
    (List.forall₂_iff_get.1 e3).2 j hjc hj
  obtain ⟨lo, l1, l2, l3, l4, l5, l6, l7, l8⟩ :=
    Comp.C15_extent_brackets_peak_partial _ fltMin hhalf hmin e1 (List.getElem_mem hjc)
  obtain ⟨cs', f1, _, f3, _⟩ :=
    Comp.C12_clusters_disjoint_complete_partial
      (toSearch ar (planeOf inp a rates) noisePower floor o) fltMin
  rw [e1] at f1
  obtain rfl := Outcome.ok.inj f1
  have hmax : cs[j].indexMax.1 = i₀ := by rw [← hdsc.peak.1]; exact hrow
  have hbw := hdsc.bandwidth.1
  refine ⟨lo, l7, ?_, ?_, ?_, ?_, hdsc.bandwidth.2, ?_⟩
  · rw [hdsc.peak.2]; exact l4
  · rw [hdsc.peak.2, hbw]; exact l5
  · rw [hbw]; exact l8
  · rw [hdsc.freq, l6, hbw]
  · intro e he
    have hmem : ((i₀ : Int), e) ∈ cs[j].locations := by
      rcases he with rfl | rfl
      · rw [← hmax]; exact l1
      · rw [← hmax, hbw]; exact l2
    obtain ⟨⟨_, _, y3, y4⟩, hx⟩ := f3 _ (List.getElem_mem hjc) _ hmem
    have hcell := snr_cell (ar := ar) (noisePower := noisePower) (floor := floor) (o := o) hget₀ (g5 e y3 y4).1
    rw [hw₀, Int.toNat_natCast, Int.cast_natCast] at hcell
    rw [hcell] at hx
    exact hx

/-- **C155, start frequency.** Under the conditions of `C155_tone_over_noise_partial`, when the samples next to the
tone alone are below half the threshold, the hit at the tone's start and drift has a start frequency that is
within `w` channels of the tone's start, and is less than `2 * w` channels wide, where `w` is the number of
channels that the tone drifts by in one time step. -/
theorem C155_start_frequency (R24 : Rounding 24) (R53 : Rounding 53) (hz : Fl → Fl)
    (ar : Arith F Fl) (fltMin : F) (junk : Coord → Int) (cc : Channel Fl) {inp : Input F}
    {grid : Nat → Int → F} {mask : Nat → Int → UInt8} (hin : Holds inp grid mask)
    (hview : inp.specOffset = 0 ∧ inp.rfiOffset = 0) {ro : RateOptions} (hT : 2 ≤ inp.timeSteps)
    (hT' : (inp.timeSteps : Int) - 1 ≤ 2 ^ 24) (hstep : ro.step ≠ 0) (hdes : ro.desmear = true)
    (hrange : ∀ i : Nat, (i : Int) < (ro.high - ro.low).tdiv ro.step →
      |ro.low + i * ro.step| < 2 ^ 22 ∧ 2 * |ro.low + i * ro.step| ≤ inp.numChannels)
    {c₀ d : Int} {i₀ w : Nat} (hi₀ : (i₀ : Int) < (ro.high - ro.low).tdiv ro.step)
    (hd : d = ro.low + i₀ * ro.step) (hw : ChannelsPerStep inp.timeSteps d w)
    {ch : Nat → Int} (hline : ToneLine inp.timeSteps c₀ d ch)
    (noisePower floor : F) {level : F} (hfl : 0 ≤ level) {p : Nat → F}
    (htone : SmearedTone inp.numChannels inp.timeSteps grid d w ch level p)
    (o : Options F) (hm : o.method = .connectedComponents)
    (hnoise : 0 < driftNoise ar noisePower (inp.timeSteps * w))
    (hmin : 0 ≤ fltMin) (hthr : fltMin ≤ o.thr)
    (hback : (level - floor) / driftNoise ar noisePower (inp.timeSteps * w) ≤ o.thr / 2)
    {hs : List (Hit F Fl)}
    (hrun : driftSearch R24 R53 hz ar fltMin junk cc inp ro noisePower floor o = .ok hs) :
    ∀ h ∈ hs, h.startFreqIndex = c₀ → h.rateIndex = i₀ →
      (0 ≤ h.binwidth ∧ h.binwidth ≤ 2 * (w - 1)) ∧
      h.bandwidth = ar.toF (ar.mul (ar.ofInt h.binwidth) (ar.abs (ar.mul ar.million cc.foff))) ∧
      ∃ m : Int, 0 ≤ m ∧ m < inp.numChannels ∧ |m - c₀| < w ∧
        h.startFreqMHz = ar.add cc.fch1 (ar.mul cc.foff (ar.ofInt m)) := by
  intro h hh hc hi
  have hhalf : ∀ v : F, o.thr < v → o.thr / 2 < v := fun v hv =>
    lt_of_le_of_lt (half_le_self (hmin.trans hthr)) hv
  have hlow : ∀ v : F, o.thr < v → fltMin < v := fun v hv => lt_of_le_of_lt hthr hv
  obtain ⟨off, hstr, hall⟩ := hit_ends R24 R53 hz ar fltMin junk cc hin hview hT hT' hstep hdes hrange hi₀ hd hw
    noisePower floor o hm hhalf hlow hrun
  obtain ⟨lo, l1, l2, l3, l4, l5, l6, l7⟩ := hall h hh hi
  have hch : ∀ t < inp.timeSteps, ch t = c₀ + off t := tone_offsets hline hstr
  have hT0 : (0 : F) < (inp.timeSteps : F) := by
    exact_mod_cast (show 0 < inp.timeSteps by omega)
  have hwF : (0 : F) < (w : F) := by exact_mod_cast (show 0 < w from hw.pos)
  have hnear : ∀ e : Int, e = lo ∨ e = lo + h.binwidth → c₀ - w < e ∧ e < c₀ + w := by
    intro e he
    by_contra hfar
    have hov : ∀ t < inp.timeSteps, overlap d w (ch t) d w (e + off t) = 0 := by
      intro t ht
      unfold overlap
      rw [Finset.card_eq_zero, Finset.filter_eq_empty_iff]
      intro q hq
      have hq' := Finset.mem_range.1 hq
      rw [hch t ht]
      unfold InWindow binChannel
      split_ifs <;> omega
    refine absurd (l7 e he) (not_lt.mpr (le_trans ?_ hback))
    refine div_le_div_of_nonneg_right (sub_le_sub_right ?_ _) hnoise.le
    refine (div_le_iff₀ hT0).mpr ?_
    rw [pathSum_bins]
    calc _ ≤ ∑ _t ∈ Finset.range inp.timeSteps, level := by
          refine Finset.sum_le_sum fun t ht => ?_
          have ht' := Finset.mem_range.mp ht
          rw [← Finset.sum_div, Int.cast_natCast, div_le_iff₀ hwF]
          have := bins_le htone hfl hstr ht' (c := e) (by omega) (by omega) w
          rw [hov t ht', Nat.cast_zero, zero_mul, add_zero] at this
          exact this.trans_eq (mul_comm _ _)
      _ = level * inp.timeSteps := by rw [Finset.sum_const, Finset.card_range, nsmul_eq_mul, mul_comm]
  have n1 := hnear lo (.inl rfl)
  have n2 := hnear (lo + h.binwidth) (.inr rfl)
  refine ⟨by omega, l6, lo + h.binwidth / 2, by omega, by omega, ?_, l5⟩
  rw [abs_lt]
  omega

/-- A tone of 16 that starts in channel 3 and moves by two channels in the one time step between two spectra, over
samples of 0 and 1. -/
def fastChan (t : Nat) (c : Int) : ℚ :=
  if InWindow 2 2 (3 + 2 * t) c then 16 else ((c + t) % 2 : Int)

def fastRun : Option (List (Int × Int × Int × Option ℚ)) :=
  match driftSearch (nearestEven 24 (by norm_num)) (nearestEven 53 (by norm_num)) id ratArith 0 (fun _ => 0)
    ⟨.fin 100, .fin 1, .fin 0, .fin 1, 0⟩ (denseInput 2 12 fastChan fun _ _ => 0)
    { low := 0, high := 4, step := 1 } 1 (1 / 2) ⟨.connectedComponents, 5, 2⟩ with
  | .ok l => some (l.map fun h => (h.startFreqIndex, h.rateIndex, h.binwidth,
      match h.startFreqMHz with | .fin q => some q | _ => none))
  | _ => none

-- the cluster has a channel on either side of the tone's start: its width is the bound of the theorem
example : fastRun = some [(3, 2, 2, some 103)] := by decide +kernel

-- every hypothesis of the theorem holds of this search
example :
    Holds (denseInput 2 12 fastChan fun _ _ => 0) fastChan (fun _ _ => 0) ∧
      (∀ i : Nat, (i : Int) < ((4 : Int) - 0).tdiv 1 → |(0 : Int) + i * 1| < 2 ^ 22 ∧ 2 * |(0 : Int) + i * 1| ≤ 12) ∧
      ChannelsPerStep 2 2 2 ∧ ToneLine 2 3 2 (fun t => 3 + 2 * t) ∧
      SmearedTone 12 2 fastChan 2 2 (fun t => 3 + 2 * t) 1 (fun _ => 16) ∧
      0 < driftNoise ratArith 1 (2 * 2) ∧ (1 - 1 / 2) / driftNoise ratArith 1 (2 * 2) ≤ 5 / 2 := by
  refine ⟨denseInput_holds _ _ _ _, fun i hi => ?_, ⟨by norm_num, .inr (by norm_num)⟩, ⟨fun t ht => ?_⟩,
    ⟨fun t _ c _ _ h => if_pos h, fun t _ c _ _ h => (if_neg h).le.trans ?_, fun t _ => by norm_num⟩, ?_, ?_⟩
  · have h5 : ((4 : Int) - 0).tdiv 1 = 4 := rfl
    rw [abs_of_nonneg (by omega)]
    omega
  · interval_cases t <;> norm_num
  · exact_mod_cast (show (c + t) % 2 ≤ 1 by omega)
  all_goals decide +kernel

end Bliss.Hit
