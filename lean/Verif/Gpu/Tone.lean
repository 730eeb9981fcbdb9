import Verif.Gpu.Offsets
import Verif.Gpu.CompProps

/-!
# A drifting tone on the GPU (C140)

The CUDA integrator followed by the CUDA component search: what they make of a tone. The GPU
counterpart of C87.
-/

namespace Bliss.Gpu

open Bliss.Drift Bliss.Float Bliss.Comp Bliss.Hit

/-! ## Model -/

/-- The drift plane and the counters that the CUDA integrator leaves in device memory, as the
`frequency_drift_plane` it returns holds them (`drift_integration_cuda.cu:113-184`). -/
def gpuAcc {F : Type} (s' : Mem IAddr (ICell F)) : Acc F where
  plane j := (s' (.plane, j)).bind Sum.getLeft?
  lowsk j := (s' (.lowsk, j)).bind Sum.getRight?
  highsk j := (s' (.highsk, j)).bind Sum.getRight?
  rolloff j := (s' (.rolloff, j)).bind Sum.getRight?

/-! ## Specification -/

section
variable {F : Type} [Field F] [LinearOrder F] [IsStrictOrderedRing F]

/-- A tone of constant power `P` in channel `ch t` at time `t`; all other samples are at most
`B`, which is below `P`. -/
structure SteadyTone (N T : Nat) (grid : Nat → Int → F) (ch : Nat → Int) (P B : F) : Prop where
  tone : ∀ t < T, grid t (ch t) = P
  other : ∀ t < T, ∀ c : Int, 0 ≤ c → c < N → c ≠ ch t → grid t c ≤ B
  below : B < P

/-- The tone is in the channel nearest to a straight line that starts at `c₀` and drifts by `d`
channels, and nowhere within the rounding error of `float` of the boundary between two channels. -/
structure FloatToneLine (T : Nat) (c₀ d : Int) (ch : Nat → Int) : Prop where
  near : ∀ t < T, |(ch t : ℚ) - (c₀ + d * t / ((T : ℚ) - 1))| < 1 / 2 - |(d : ℚ)| * 2 ^ (-21 : ℤ)

/-! ## Cells -/

omit [LinearOrder F] [IsStrictOrderedRing F] [Field F] in
/-- Without desmearing there is at most one sample per time step. -/
theorem bandPath_one (N T : Nat) (up : Bool) (off : Nat → Int) (c : Int) :
    bandPath N T up 1 off c = (List.range T).filterMap fun t =>
      if 0 ≤ c + off t ∧ c + off t < N then some (t, c + off t) else none := by
  unfold bandPath
  induction T with
  | zero => rfl
  | succ T ih =>
    rw [List.range_succ (n := T), List.flatMap_append, ih, List.filterMap_append]
    congr 1
    simp only [List.flatMap_cons, List.flatMap_nil, List.append_nil, List.range_one]
    cases up <;> simp [List.filterMap_cons]

theorem mean_le (grid : Nat → Int → F) {P B : F} {T : Nat} (p : List (Nat × Int)) (hlen : p.length ≤ T)
    (hall : ∀ s ∈ p, grid s.1 s.2 ≤ P) (hBP : B ≤ P) (hsome : ∃ s ∈ p, grid s.1 s.2 ≤ B) :
    pathMean grid p ≤ P - (P - B) / T := by
  obtain ⟨s, hs, hsB⟩ := hsome
  obtain ⟨u, v, rfl⟩ := List.append_of_mem hs
  have hu : ∀ (w : List (Nat × Int)), (∀ s ∈ w, grid s.1 s.2 ≤ P) → ∀ acc : F,
      w.foldl (fun acc s => acc + grid s.1 s.2) acc ≤ acc + w.length * P := by
    intro w
    induction w with
    | nil => intro _ acc; simp
    | cons s w ih =>
      intro hw acc
      have h1 := ih (fun s hs => hw s (by simp [hs])) (acc + grid s.1 s.2)
      have h2 := hw s (by simp)
      simp only [List.foldl_cons, List.length_cons, Nat.cast_add, Nat.cast_one]
      linarith
  have h1 := hu u (fun s hs => hall s (by simp [hs])) 0
  have h2 := hu v (fun s hs => hall s (by simp [hs]))
    (u.foldl (fun acc s => acc + grid s.1 s.2) 0 + grid s.1 s.2)
  have hn : 0 < (u ++ s :: v).length := by simp
  have hT : 0 < T := by omega
  have hnF : (0 : F) < ((u ++ s :: v).length : F) := by exact_mod_cast hn
  have hTF : (0 : F) < (T : F) := by exact_mod_cast hT
  have hlF : ((u ++ s :: v).length : F) ≤ T := by exact_mod_cast hlen
  unfold pathMean
  rw [if_neg (by simp)]
  rw [Int.cast_natCast, div_le_iff₀ hnF, List.foldl_append, List.foldl_cons]
  refine h2.trans ?_
  have e : ((u ++ s :: v).length : F) = u.length + v.length + 1 := by
    simp only [List.length_append, List.length_cons]; push_cast; ring
  have h3 : (P - B) / T * ((u ++ s :: v).length : F) ≤ P - B := by
    rw [div_mul_eq_mul_div, div_le_iff₀ hTF]
    exact mul_le_mul_of_nonneg_left hlF (by linarith)
  rw [sub_mul]
  rw [e] at h3 ⊢
  nlinarith

/-- What the two CUDA stages see of a tone: the cell of its start channel and drift has its power,
all other cells are weaker by a margin. -/
theorem gpu_tone_cells (R24 D24 : Rounding 24) (D53 : Rounding 53) (hz : Fl → Fl)
    (ar : Arith F Fl) {inp : Input F} {grid : Nat → Int → F} {mask : Nat → Int → UInt8}
    (hin : Holds inp grid mask) (hview : DenseViews inp) {ro : RateOptions}
    (hT : 2 ≤ inp.timeSteps) (hT' : (inp.timeSteps : Int) - 1 ≤ 2 ^ 24) (hstep : ro.step ≠ 0)
    {c₀ d : Int} {i₀ : Nat}
    (hrange : ∀ i : Nat, (i : Int) < (ro.high - ro.low).tdiv ro.step →
      3 * |ro.low + i * ro.step| < 2 ^ 22 ∧ 0 ≤ c₀ + (ro.low + i * ro.step) ∧
        c₀ + (ro.low + i * ro.step) < inp.numChannels)
    (hplain : ro.desmear = false ∨ ∀ i : Nat, (i : Int) < (ro.high - ro.low).tdiv ro.step →
      |ro.low + i * ro.step| ≤ (inp.timeSteps : Int) - 1)
    (hi₀ : (i₀ : Int) < (ro.high - ro.low).tdiv ro.step) (hd : d = ro.low + i₀ * ro.step)
    (hstart : 0 ≤ c₀ ∧ c₀ < inp.numChannels) {ch : Nat → Int}
    (hline : FloatToneLine inp.timeSteps c₀ d ch) {P B : F}
    (htone : SteadyTone inp.numChannels inp.timeSteps grid ch P B)
    (noisePower floor : F) (o : Options F)
    (hnoise : 0 < driftNoise ar noisePower inp.timeSteps) :
    ∃ rates, computeDrifts R24 hz inp.timeSteps ro = .ok rates ∧
      (rates.length : Int) = (ro.high - ro.low).tdiv ro.step ∧
      (∃ off, OffsetsAre (cudaOps D24 D53) rates inp.timeSteps off) ∧
      ∀ (G : Nat) (s' : Mem IAddr (ICell F)), 0 < G →
        Completes ProgStep (gpuIntegrate (F := F) (cudaOps D24 D53) inp.numChannels inp.timeSteps
          rates G) (integrateMem inp rates.length) s' →
        let s := toSearch ar (planeOf inp (gpuAcc s') rates) noisePower floor o
        s.snr (i₀, c₀) = (P - floor) / driftNoise ar noisePower inp.timeSteps ∧
        ∀ x, s.grid.has x → x ≠ ((i₀ : Int), c₀) → s.snr x ≤
          (P - (P - B) / inp.timeSteps - floor) / driftNoise ar noisePower inp.timeSteps := by
  obtain ⟨rates, off, h1, h2, h3, h4⟩ := driftSetup_of (N := inp.numChannels) (o := ro)
    (B := 1398102) R24 (narrow D24 D53) hz (by norm_num) hT hT'
    (fun d hd => C06_cuda_geometry_partial R24 D24 D53 (by omega) hT hT') hstep (by omega)
    (fun i hi => by have := (hrange i hi).1; omega)
  refine ⟨rates, h1, h2, ⟨off, h3⟩, fun G s' hG hs' => ?_⟩
  intro s
  have hcells := ((C81_gpu_drift_plane hin hview (ops := cudaOps D24 D53) h3 hG).2.2.2 s' hs').1
  set n := driftNoise ar noisePower inp.timeSteps with hn
  have hTpos : 0 < inp.timeSteps := by omega
  -- the SNR of each cell
  have hcell : ∀ (i : Nat) (r : Rate Fl), rates[i]? = some r → ∀ c : Nat, c < inp.numChannels →
      s.snr (i, c) = (pathMean grid ((List.range inp.timeSteps).filterMap fun t =>
        if 0 ≤ (c : Int) + off i t ∧ (c : Int) + off i t < inp.numChannels then
          some (t, (c : Int) + off i t) else none) - floor) / n := by
    intro i r hr c hc
    have hil : i < rates.length := by
      rw [List.getElem?_eq_some_iff] at hr; exact hr.1
    have hrg := hrange i (by omega)
    have hdes : r.desmear = 1 := by
      refine (rates_plain_of h1 hT hT' hr (by omega)).2 ?_
      rcases hplain with h | h
      · exact Or.inl h
      · exact Or.inr (h i (by omega))
    have hv := (hcells i r hr c hc).1
    rw [hdes, show (1 : Int).toNat = 1 from rfl, bandPath_one] at hv
    have := snr_cell (ar := ar) (noisePower := noisePower) (floor := floor) (o := o) (inp := inp)
      (a := gpuAcc s') hr (c := c) (v := _) (by simp only [gpuAcc, hv]; rfl)
    rw [hdes, mul_one] at this
    exact this
  -- the tone's path
  have hi₀l : i₀ < rates.length := by omega
  have hget₀ := List.getElem?_eq_getElem hi₀l
  obtain ⟨_, _, _, g2, _, _, g4⟩ := h4 i₀ _ hget₀
  rw [← hd] at g2
  rw [g2] at g4
  have hch : ∀ t < inp.timeSteps, ch t = c₀ + off i₀ t := by
    intro t ht
    have a1 := hline.near t ht
    have a2 := g4.close t ht
    have a3 : |((ch t - (c₀ + off i₀ t) : Int) : ℚ)| < 1 := by
      have e : ((ch t - (c₀ + off i₀ t) : Int) : ℚ) =
          ((ch t : ℚ) - (c₀ + d * t / ((inp.timeSteps : ℚ) - 1))) -
            ((off i₀ t : ℚ) - d * t / ((inp.timeSteps : ℚ) - 1)) := by
        push_cast; ring
      rw [e]
      have a4 := abs_sub ((ch t : ℚ) - (c₀ + d * t / ((inp.timeSteps : ℚ) - 1)))
        ((off i₀ t : ℚ) - d * t / ((inp.timeSteps : ℚ) - 1))
      have a5 : |(d : ℚ)| * (2 ^ (-23 : ℤ) + 2 ^ (-22 : ℤ)) ≤ |(d : ℚ)| * 2 ^ (-21 : ℤ) :=
        mul_le_mul_of_nonneg_left (by norm_num) (abs_nonneg _)
      have a6 := add_lt_add_of_lt_of_le a1 (a2.trans (add_le_add_right a5 _))
      exact lt_of_le_of_lt a4 (lt_of_lt_of_eq a6 (by ring))
    have a4 : |ch t - (c₀ + off i₀ t)| < 1 := by exact_mod_cast a3
    rw [Int.abs_lt_one_iff] at a4
    omega
  obtain ⟨cn, rfl⟩ := Int.eq_ofNat_of_zero_le hstart.1
  have hcn : cn < inp.numChannels := by omega
  have hend := hrange i₀ hi₀
  rw [← hd] at hend
  refine ⟨?_, ?_⟩
  · rw [hcell i₀ _ hget₀ cn hcn]
    congr 2
    have hmem : ∀ x ∈ ((List.range inp.timeSteps).filterMap fun t =>
        if 0 ≤ (cn : Int) + off i₀ t ∧ (cn : Int) + off i₀ t < inp.numChannels then
          some (t, (cn : Int) + off i₀ t) else none), P ≤ grid x.1 x.2 ∧ grid x.1 x.2 ≤ P := by
      intro x hx
      obtain ⟨t, ht, hx⟩ := List.mem_filterMap.1 hx
      rw [List.mem_range] at ht
      split at hx
      · obtain rfl := Option.some.inj hx
        dsimp only
        rw [← hch t ht, htone.tone t ht]
        exact ⟨le_rfl, le_rfl⟩
      · cases hx
    have hne : ((List.range inp.timeSteps).filterMap fun t =>
        if 0 ≤ (cn : Int) + off i₀ t ∧ (cn : Int) + off i₀ t < inp.numChannels then
          some (t, (cn : Int) + off i₀ t) else none) ≠ [] := by
      intro h
      have : ((0 : Nat), (cn : Int)) ∈ ((List.range inp.timeSteps).filterMap fun t =>
        if 0 ≤ (cn : Int) + off i₀ t ∧ (cn : Int) + off i₀ t < inp.numChannels then
          some (t, (cn : Int) + off i₀ t) else none) := by
        refine List.mem_filterMap.2 ⟨0, List.mem_range.2 hTpos, ?_⟩
        rw [g4.start, add_zero, if_pos ⟨by omega, by omega⟩]
      rw [h] at this
      simp at this
    obtain ⟨b1, b2⟩ := sum_bounds grid _ hmem 0
    unfold pathMean
    rw [if_neg hne]
    have hl := List.length_pos_iff.2 hne
    generalize ((List.range inp.timeSteps).filterMap fun t =>
        if 0 ≤ (cn : Int) + off i₀ t ∧ (cn : Int) + off i₀ t < inp.numChannels then
          some (t, (cn : Int) + off i₀ t) else none) = p at *
    have hlF : (0 : F) < (p.length : F) := by exact_mod_cast hl
    rw [Int.cast_natCast, div_eq_iff (ne_of_gt hlF)]
    linarith
  · rintro ⟨xi, xc⟩ ⟨x1, x2, x3, x4⟩ hne
    obtain ⟨i, rfl⟩ := Int.eq_ofNat_of_zero_le x1
    obtain ⟨c, rfl⟩ := Int.eq_ofNat_of_zero_le x3
    change ((i : Nat) : Int) < ((rates.length : Nat) : Int) at x2
    change ((c : Nat) : Int) < ((inp.numChannels : Nat) : Int) at x4
    have hil : i < rates.length := by omega
    have hget := List.getElem?_eq_getElem hil
    obtain ⟨_, _, _, k2, _, _, k4⟩ := h4 i _ hget
    change s.snr ((i : Int), (c : Int)) ≤ _
    rw [hcell i _ hget c (by omega)]
    refine div_le_div_of_nonneg_right (sub_le_sub_right ?_ _) hnoise.le
    refine mean_le grid _ ((List.length_filterMap_le _ _).trans (by simp)) ?_ htone.below.le ?_
    · intro x hx
      obtain ⟨t, ht, hx⟩ := List.mem_filterMap.1 hx
      rw [List.mem_range] at ht
      split at hx
      · rename_i hb
        obtain rfl := Option.some.inj hx
        dsimp only
        by_cases he : (c : Int) + off i t = ch t
        · rw [he, htone.tone t ht]
        · exact (htone.other t ht _ hb.1 hb.2 he).trans htone.below.le
      · cases hx
    · by_cases hc : c = cn
      · -- same start, other drift: the end differs
        subst hc
        have hii : i ≠ i₀ := fun h => hne (by rw [h])
        have hr := hrange i (by omega)
        have hend' : off i (inp.timeSteps - 1) = ro.low + i * ro.step := by rw [k4.stop, k2]
        have hother : (c : Int) + (ro.low + i * ro.step) ≠ ch (inp.timeSteps - 1) := by
          rw [hch _ (by omega), g4.stop, hd]
          intro h
          have hmul : ((i : Int) - i₀) * ro.step = 0 := by rw [sub_mul]; omega
          rcases mul_eq_zero.1 hmul with h | h
          · exact hii (by omega)
          · exact hstep h
        refine ⟨(inp.timeSteps - 1, (c : Int) + (ro.low + i * ro.step)), ?_,
          htone.other _ (by omega) _ hr.2.1 hr.2.2 hother⟩
        refine List.mem_filterMap.2 ⟨inp.timeSteps - 1, List.mem_range.2 (by omega), ?_⟩
        rw [hend', if_pos ⟨hr.2.1, hr.2.2⟩]
      · refine ⟨(0, (c : Int)), ?_, htone.other 0 hTpos _ (by omega) x4 ?_⟩
        · refine List.mem_filterMap.2 ⟨0, List.mem_range.2 hTpos, ?_⟩
          rw [k4.start, add_zero, if_pos ⟨by omega, by omega⟩]
        · rw [hch 0 hTpos, g4.start]
          omega

/-! ## The properties -/

omit [Field F] [LinearOrder F] [IsStrictOrderedRing F] in
theorem length_le_one {α : Type} {l : List α} (hn : l.Nodup) (h : ∀ a b, a ∈ l → b ∈ l → a = b) :
    l.length ≤ 1 := by
  match l with
  | [] => simp
  | [_] => simp
  | a :: b :: w =>
    obtain rfl := h a b (by simp) (by simp)
    simp at hn

/-- A diamond around a cell that is `dist` away from the borders lies in the plane. -/
theorem hood_inside {g : Grid} {k : Int} {x y : Coord} (h1 : k ≤ x.1 ∧ x.1 + k ≤ g.drifts)
    (h2 : k ≤ x.2 ∧ x.2 + k ≤ g.chans) (h : InHood k x y) : g.has y := by
  obtain ⟨a1, a2, a3, a4⟩ := h
  have := abs_nonneg (y.2 - x.2)
  refine ⟨?_, ?_, ?_, ?_⟩ <;> omega

/-- **C140, recovery.** Take any spectrum (in exact arithmetic) with a tone of constant power on a
straight line from channel `c₀`, drifting by `d` channels, `d` being one of the searched drifts, all
of which stay in the band when started at `c₀`; every other sample is weaker. Suppose that no
desmearing takes place, that the tone's cell is at least the search distance away from the borders of
the drift plane, and that its SNR is above the threshold. Then every result that the CUDA integrator
and the CUDA component search can give, under any schedule, contains a protohit at the tone's start
channel and drift, with the tone's SNR, and every other protohit is weaker.

Missing: desmeared drifts, and float rounding of the sums. -/
theorem C140_tone_found_on_gpu_partial (R24 D24 : Rounding 24) (D53 : Rounding 53) (hz : Fl → Fl)
    (ar : Arith F Fl) {inp : Input F} {grid : Nat → Int → F} {mask : Nat → Int → UInt8}
    (hin : Holds inp grid mask) (hview : DenseViews inp) {ro : RateOptions}
    (hT : 2 ≤ inp.timeSteps) (hT' : (inp.timeSteps : Int) - 1 ≤ 2 ^ 24) (hstep : ro.step ≠ 0)
    {c₀ d : Int} {i₀ : Nat}
    (hrange : ∀ i : Nat, (i : Int) < (ro.high - ro.low).tdiv ro.step →
      3 * |ro.low + i * ro.step| < 2 ^ 22 ∧ 0 ≤ c₀ + (ro.low + i * ro.step) ∧
        c₀ + (ro.low + i * ro.step) < inp.numChannels)
    (hplain : ro.desmear = false ∨ ∀ i : Nat, (i : Int) < (ro.high - ro.low).tdiv ro.step →
      |ro.low + i * ro.step| ≤ (inp.timeSteps : Int) - 1)
    (hd : d = ro.low + i₀ * ro.step) {ch : Nat → Int}
    (hline : FloatToneLine inp.timeSteps c₀ d ch) {P B : F}
    (htone : SteadyTone inp.numChannels inp.timeSteps grid ch P B)
    (noisePower floor : F) (o : Options F)
    (hnoise : 0 < driftNoise ar noisePower inp.timeSteps) (hdist : 2 ≤ o.dist)
    (hrow : o.dist ≤ i₀ ∧ i₀ + o.dist ≤ (ro.high - ro.low).tdiv ro.step)
    (hcol : o.dist ≤ c₀ ∧ c₀ + o.dist ≤ inp.numChannels) (hthr : 0 ≤ o.thr)
    (habove : o.thr < (P - floor) / driftNoise ar noisePower inp.timeSteps) :
    ∃ rates, computeDrifts R24 hz inp.timeSteps ro = .ok rates ∧
      ∀ (G : Nat) (s' : Mem IAddr (ICell F)), 0 < G →
        Completes ProgStep (gpuIntegrate (F := F) (cudaOps D24 D53) inp.numChannels inp.timeSteps
          rates G) (integrateMem inp rates.length) s' →
        ∀ (G' : Nat) (stale : Bool) (out : List (GpuHit F)), 0 < G' →
          Reports (toSearch ar (planeOf inp (gpuAcc s') rates) noisePower floor o) G' stale out →
          ∃ a ∈ out, a.indexMax = ((i₀ : Int), c₀) ∧
            a.snr = (P - floor) / driftNoise ar noisePower inp.timeSteps ∧
            ∀ b ∈ out, b = a ∨ b.snr < a.snr := by
  obtain ⟨rates, h1, h2, _, h3⟩ := gpu_tone_cells R24 D24 D53 hz ar hin hview hT hT' hstep hrange
    hplain (by omega) hd ⟨by omega, by omega⟩ hline htone noisePower floor o hnoise
  refine ⟨rates, h1, fun G s' hG hs' G' stale out hG' hrep => ?_⟩
  obtain ⟨k1, k2⟩ := h3 G s' hG hs'
  set s := toSearch ar (planeOf inp (gpuAcc s') rates) noisePower floor o with hs
  set n := driftNoise ar noisePower inp.timeSteps with hn
  have hTF : (0 : F) < (inp.timeSteps : F) := by
    have : 0 < inp.timeSteps := by omega
    exact_mod_cast this
  have hmargin : (P - (P - B) / inp.timeSteps - floor) / n < (P - floor) / n := by
    have h0 : 0 < (P - B) / (inp.timeSteps : F) := div_pos (by linarith [htone.below]) hTF
    exact div_lt_div_of_pos_right (by linarith) hnoise
  have hweak : ∀ x, s.grid.has x → x ≠ ((i₀ : Int), c₀) → s.snr x < s.snr ((i₀ : Int), c₀) := by
    intro x hx hne
    rw [k1]
    exact lt_of_le_of_lt (k2 x hx hne) hmargin
  have hdr : (s.grid.drifts : Int) = (ro.high - ro.low).tdiv ro.step := h2
  have hchn : (s.grid.chans : Int) = inp.numChannels := rfl
  have hhas : s.grid.has ((i₀ : Int), c₀) := by
    refine ⟨?_, ?_, ?_, ?_⟩ <;> simp only [hdr, hchn] <;> omega
  have hpeak : IsPeak s ((i₀ : Int), c₀) := by
    refine ⟨?_, ?_, fun y hy => ?_⟩
    · rw [k1]; exact lt_of_le_of_lt (half_le_self hthr) habove
    · rw [k1]; exact habove
    · have hg : s.grid.has y := hood_inside (k := o.dist) (by simp only [hdr]; omega)
        (by simp only [hchn]; omega) hy
      refine ⟨hg, ?_⟩
      by_cases he : y = ((i₀ : Int), c₀)
      · rw [he]
      · exact (hweak y hg he).le
  obtain ⟨r1, r2, r3⟩ := C77_reported_peaks hdist hG' hrep
  obtain ⟨a, ha, hae⟩ := r3 _ hhas hpeak fun y hy _ => by
    by_cases he : y = ((i₀ : Int), c₀)
    · exact .inl he
    · exact .inr (.inl (hweak y hy he))
  refine ⟨a, ha, hae, by rw [(r2 a ha).2.2, hae, k1], fun b hb => ?_⟩
  by_cases he : b.indexMax = a.indexMax
  · exact .inl (List.inj_on_of_nodup_map r1 hb ha he)
  · right
    rw [(r2 a ha).2.2, (r2 b hb).2.2, hae]
    exact hweak _ (r2 b hb).1 (by rw [← hae]; exact he)

/-- **C140, nothing else.** If moreover the threshold is above what a path can have that misses the
tone at one time step, and there are at least nine times `dist * dist` cells in the plane, then the
search has no undefined behaviour under any schedule, it can return, and whenever it returns the tone
is its only protohit. -/
theorem C140_only_the_tone_partial (R24 D24 : Rounding 24) (D53 : Rounding 53) (hz : Fl → Fl)
    (ar : Arith F Fl) {inp : Input F} {grid : Nat → Int → F} {mask : Nat → Int → UInt8}
    (hin : Holds inp grid mask) (hview : DenseViews inp) {ro : RateOptions}
    (hT : 2 ≤ inp.timeSteps) (hT' : (inp.timeSteps : Int) - 1 ≤ 2 ^ 24) (hstep : ro.step ≠ 0)
    {c₀ d : Int} {i₀ : Nat}
    (hrange : ∀ i : Nat, (i : Int) < (ro.high - ro.low).tdiv ro.step →
      3 * |ro.low + i * ro.step| < 2 ^ 22 ∧ 0 ≤ c₀ + (ro.low + i * ro.step) ∧
        c₀ + (ro.low + i * ro.step) < inp.numChannels)
    (hplain : ro.desmear = false ∨ ∀ i : Nat, (i : Int) < (ro.high - ro.low).tdiv ro.step →
      |ro.low + i * ro.step| ≤ (inp.timeSteps : Int) - 1)
    (hd : d = ro.low + i₀ * ro.step) {ch : Nat → Int}
    (hline : FloatToneLine inp.timeSteps c₀ d ch) {P B : F}
    (htone : SteadyTone inp.numChannels inp.timeSteps grid ch P B)
    (noisePower floor : F) (o : Options F)
    (hnoise : 0 < driftNoise ar noisePower inp.timeSteps) (hdist : 2 ≤ o.dist)
    (hrow : o.dist ≤ i₀ ∧ i₀ + o.dist ≤ (ro.high - ro.low).tdiv ro.step)
    (hcol : o.dist ≤ c₀ ∧ c₀ + o.dist ≤ inp.numChannels) (hthr : 0 ≤ o.thr)
    (habove : o.thr < (P - floor) / driftNoise ar noisePower inp.timeSteps)
    (hclear : (P - (P - B) / inp.timeSteps - floor) / driftNoise ar noisePower inp.timeSteps ≤ o.thr)
    (hroom : 9 * (o.dist * o.dist) ≤ (ro.high - ro.low).tdiv ro.step * inp.numChannels) :
    ∃ rates, computeDrifts R24 hz inp.timeSteps ro = .ok rates ∧
      ∀ (G : Nat) (s' : Mem IAddr (ICell F)), 0 < G →
        Completes ProgStep (gpuIntegrate (F := F) (cudaOps D24 D53) inp.numChannels inp.timeSteps
          rates G) (integrateMem inp rates.length) s' →
        ∀ (G' : Nat) (stale : Bool), 0 < G' →
          let s := toSearch ar (planeOf inp (gpuAcc s') rates) noisePower floor o
          ¬ CanFault s G' stale ∧ (∃ out, Reports s G' stale out) ∧
          ∀ out, Reports s G' stale out → ∃ a, out = [a] ∧ a.indexMax = ((i₀ : Int), c₀) ∧
            a.snr = (P - floor) / driftNoise ar noisePower inp.timeSteps := by
  obtain ⟨rates, h1, h2, _, h3⟩ := gpu_tone_cells R24 D24 D53 hz ar hin hview hT hT' hstep hrange
    hplain (by omega) hd ⟨by omega, by omega⟩ hline htone noisePower floor o hnoise
  obtain ⟨rates', h1', hfound⟩ := C140_tone_found_on_gpu_partial R24 D24 D53 hz ar hin hview hT hT'
    hstep hrange hplain hd hline htone noisePower floor o hnoise hdist hrow hcol hthr habove
  rw [h1] at h1'
  obtain rfl := Outcome.ok.inj h1'
  refine ⟨rates, h1, fun G s' hG hs' G' stale hG' => ?_⟩
  obtain ⟨k1, k2⟩ := h3 G s' hG hs'
  intro s
  have hone : ∀ x, s.grid.has x → IsPeak s x → x = ((i₀ : Int), c₀) := by
    intro x hx hp
    by_contra hne
    exact absurd hp.2.1 (not_lt.2 ((k2 x hx hne).trans hclear))
  have hdr : (s.grid.drifts : Int) = (ro.high - ro.low).tdiv ro.step := h2
  have hcap : capacity s = .ok ((numel s : Int) / (o.dist * o.dist)) := by
    unfold capacity
    rw [if_neg (by change o.dist ≠ 0; omega)]
    rfl
  have hnum : (numel s : Int) = (ro.high - ro.low).tdiv ro.step * inp.numChannels := by
    rw [← hdr]
    simp only [numel]
    push_cast
    rfl
  have hrm : Roomy s ((numel s : Int) / (o.dist * o.dist)) := by
    have hlen : ((List.range (numel s)).filter fun n =>
        decide (classify s (cellAt s.grid n) = .peak)).length ≤ 1 := by
      refine length_le_one (List.nodup_range.filter _) fun n m hn hm => ?_
      have key : ∀ n ∈ (List.range (numel s)).filter fun n =>
          decide (classify s (cellAt s.grid n) = .peak), (n : Int) = lin s.grid ((i₀ : Int), c₀) := by
        intro n hn
        rw [List.mem_filter, List.mem_range, decide_eq_true_eq] at hn
        rw [← hone _ (numel_cell hn.1) (isPeak_iff.2 hn.2), lin_cellAt]
      have := (key n hn).trans (key m hm).symm
      omega
    unfold Roomy
    have h9 : (9 : Int) ≤ (numel s : Int) / (o.dist * o.dist) := by
      rw [Int.le_ediv_iff_mul_le (by positivity), hnum]
      exact hroom
    omega
  obtain ⟨f1, f2⟩ := C79_memory_safe_partial (s := s) hdist hG' hcap hrm stale
  refine ⟨f1, f2, fun out hrep => ?_⟩
  obtain ⟨a, ha, ha1, ha2, ha3⟩ := hfound G s' hG hs' G' stale out hG' hrep
  obtain ⟨r1, r2, _⟩ := C77_reported_peaks hdist hG' hrep
  refine ⟨a, ?_, ha1, ha2⟩
  have hall : ∀ b ∈ out, b = a := by
    intro b hb
    have e := hone _ (r2 b hb).1 (r2 b hb).2.1
    exact List.inj_on_of_nodup_map r1 hb ha (by rw [e, ha1])
  have hnd : out.Nodup := List.Nodup.of_map _ r1
  cases out with
  | nil => simp at ha
  | cons b w =>
    have hb := hall b (by simp)
    cases w with
    | nil => rw [hb]
    | cons c w =>
      have hc := hall c (by simp)
      rw [hb, hc] at hnd
      simp at hnd

end

/-! ## Non-vacuity -/

/-- The hypotheses of both theorems are met by a tone of power 10 that drifts by 2 channels over 3
time steps in a band of 64, with drifts -4, ..., 4 searched, and the integrator does complete. -/
example (D24 : Rounding 24) (D53 : Rounding 53) (o : Options ℚ) (hdist : o.dist = 2)
    (hthr : o.thr = 8) :
    let ch : Nat → Int := fun t => 20 + t
    let grid : Nat → Int → ℚ := fun t c => if c = ch t then 10 else 0
    let inp := denseInput 3 64 grid (fun _ _ => 0)
    let ro : RateOptions := { low := -4, high := 5, step := 1, desmear := false }
    Holds inp grid (fun _ _ => 0) ∧ DenseViews inp ∧ 2 ≤ inp.timeSteps ∧
      (inp.timeSteps : Int) - 1 ≤ 2 ^ 24 ∧ ro.step ≠ 0 ∧
      (∀ i : Nat, (i : Int) < (ro.high - ro.low).tdiv ro.step →
        3 * |ro.low + i * ro.step| < 2 ^ 22 ∧ 0 ≤ 20 + (ro.low + i * ro.step) ∧
          20 + (ro.low + i * ro.step) < inp.numChannels) ∧
      (2 : Int) = ro.low + (6 : Nat) * ro.step ∧ FloatToneLine inp.timeSteps 20 2 ch ∧
      SteadyTone inp.numChannels inp.timeSteps grid ch 10 0 ∧
      (0 : ℚ) < driftNoise (unitArith ℚ) 1 inp.timeSteps ∧ 2 ≤ o.dist ∧
      (o.dist ≤ (6 : Nat) ∧ (6 : Nat) + o.dist ≤ (ro.high - ro.low).tdiv ro.step) ∧
      (o.dist ≤ 20 ∧ 20 + o.dist ≤ inp.numChannels) ∧ 0 ≤ o.thr ∧
      o.thr < (10 - 0) / driftNoise (unitArith ℚ) 1 inp.timeSteps ∧
      (10 - (10 - 0) / (inp.timeSteps : ℚ) - 0) / driftNoise (unitArith ℚ) 1 inp.timeSteps ≤ o.thr ∧
      9 * (o.dist * o.dist) ≤ (ro.high - ro.low).tdiv ro.step * inp.numChannels ∧
      ∀ rates, computeDrifts D24 id inp.timeSteps ro = .ok rates →
        ∃ s', Completes ProgStep (gpuIntegrate (F := ℚ) (cudaOps D24 D53) inp.numChannels
          inp.timeSteps rates 4) (integrateMem inp rates.length) s' := by
  intro ch grid inp ro
  have hr : (ro.high - ro.low).tdiv ro.step = 9 := rfl
  have hT : inp.timeSteps = 3 := rfl
  have hN : inp.numChannels = 64 := rfl
  have hn : driftNoise (unitArith ℚ) 1 inp.timeSteps = 1 := rfl
  have hrange : ∀ i : Nat, (i : Int) < (ro.high - ro.low).tdiv ro.step →
        3 * |ro.low + i * ro.step| < 2 ^ 22 ∧ 0 ≤ 20 + (ro.low + i * ro.step) ∧
          20 + (ro.low + i * ro.step) < inp.numChannels := by
    intro i hi
    rw [hr] at hi
    have h1 : |ro.low + i * ro.step| ≤ 4 := by simp only [ro]; rw [abs_le]; omega
    rw [hN]
    refine ⟨by omega, ?_, ?_⟩ <;> simp only [ro] <;> omega
  have hline : FloatToneLine inp.timeSteps 20 2 ch := by
    refine ⟨fun t _ => ?_⟩
    simp only [ch, hT]
    push_cast
    rw [show (20 + (t : ℚ) - (20 + 2 * t / ((3 : ℚ) - 1))) = 0 by ring]
    norm_num
  have htone : SteadyTone inp.numChannels inp.timeSteps grid ch 10 0 := by
    refine ⟨fun t _ => ?_, fun t _ c _ _ hne => ?_, by norm_num⟩
    · simp [grid]
    · simp [grid, hne]
  refine ⟨denseInput_holds _ _ _ _, denseInput_dense _ _ _ _, by rw [hT]; decide,
    by rw [hT]; norm_num, by simp [ro], hrange, rfl, hline, htone, by rw [hn]; norm_num, by omega,
    by rw [hr, hdist]; decide, by rw [hN, hdist]; decide, by rw [hthr]; norm_num,
    by rw [hthr, hn]; norm_num, by rw [hthr, hn, hT]; norm_num, by rw [hdist, hr, hN]; decide,
    fun rates h => ?_⟩
  obtain ⟨rates', h1, _, ⟨off, h2⟩, _⟩ := gpu_tone_cells D24 D24 D53 id (unitArith ℚ)
    (denseInput_holds 3 64 grid fun _ _ => 0) (denseInput_dense 3 64 grid fun _ _ => 0) (by decide)
    (by decide) (by decide) hrange (.inl rfl) (i₀ := 6) (by decide) rfl (by decide) hline htone 1 0 o
    (by rw [hn]; norm_num)
  rw [h] at h1
  obtain rfl := Outcome.ok.inj h1
  exact (C81_gpu_drift_plane (denseInput_holds 3 64 grid fun _ _ => 0)
    (denseInput_dense 3 64 grid fun _ _ => 0) h2 (by decide)).2.2.1

/-- **C140 (counters).** What the search is told of flags is what the drift plane of the GPU holds: per cell, the
numbers modulo 256 of samples of the cell's line with the low-kurtosis flag, the high-kurtosis flag and the
roll-off flag. -/
theorem C140_counters {F : Type} [Field F] [LinearOrder F] [IsStrictOrderedRing F] {ops : SlopeOps Fl}
    {inp : Input F} {grid : Nat → Int → F} {mask : Nat → Int → UInt8} (hin : Holds inp grid mask)
    (hd : DenseViews inp) {rates : List (Rate Fl)} {off : Nat → Nat → Int}
    (hoff : OffsetsAre ops rates inp.timeSteps off) {G : Nat} (hG : 0 < G) {s' : Mem IAddr (ICell F)}
    (hs : Completes ProgStep (gpuIntegrate (F := F) ops inp.numChannels inp.timeSteps rates G)
      (integrateMem inp rates.length) s') {i : Nat} {r : Rate Fl} (hr : rates[i]? = some r) {c : Nat}
    (hc : c < inp.numChannels) :
    let p := bandPath inp.numChannels inp.timeSteps (ops.nonneg r.slope) r.desmear.toNat (off i) c
    (planeOf inp (gpuAcc s') rates).rfi (i, c) =
      (pathFlags mask 2 p % 256, pathFlags mask 4 p % 256, pathFlags mask 1 p % 256) := by
  obtain ⟨_, l, h, o, e1, e2, e3, e4, e5, e6⟩ :=
    ((C81_gpu_drift_plane hin hd hoff hG).2.2.2 s' hs).1 i r hr c hc
  simp only [planeOf, gpuAcc, e1, e2, e3, ← e4, ← e5, ← e6]
  rfl

/-- The hypotheses are met by the plane of one drift over a channel that has the low-kurtosis flag at the first
time and the high-kurtosis flag at the second. -/
example (R24 D24 : Rounding 24) (D53 : Rounding 53) :
    let inp := denseInput 2 8 (fun _ _ => (0 : ℚ)) fun t _ => if t = 0 then 2 else 4
    ∃ rates, computeDrifts R24 id 2 { low := 0, high := 1, step := 1 } = .ok rates ∧
      ∃ s', Completes ProgStep (gpuIntegrate (F := ℚ) (cudaOps D24 D53) 8 2 rates 4)
        (integrateMem inp rates.length) s' ∧ ∃ p, (planeOf inp (gpuAcc s') rates).rfi (0, 3) =
          (pathFlags (fun t _ => if t = 0 then 2 else 4) 2 p % 256, pathFlags (fun t _ => if t = 0 then 2 else 4) 4 p % 256,
            pathFlags (fun t _ => if t = 0 then 2 else 4) 1 p % 256) := by
  intro inp
  obtain ⟨rates, off, h1, h2, h3, _⟩ := driftSetup_of (N := 8) (T := 2) (o := { low := 0, high := 1, step := 1 })
    (B := 1398102) R24 (narrow D24 D53) id (by norm_num) (by norm_num) (by norm_num)
    (fun d hd => C06_cuda_geometry_partial R24 D24 D53 (by omega) (by norm_num) (by norm_num)) (by decide)
    (by decide) (fun i hi => by
      have : ((1 : Int) - 0).tdiv 1 = 1 := rfl
      dsimp only at hi
      have : i = 0 := by omega
      subst this
      norm_num)
  have hin := denseInput_holds 2 8 (fun _ _ => (0 : ℚ)) fun t _ => if t = 0 then 2 else 4
  have hde := denseInput_dense 2 8 (fun _ _ => (0 : ℚ)) fun t _ => if t = 0 then 2 else 4
  obtain ⟨s', hs⟩ := (C81_gpu_drift_plane hin hde h3 (G := 4) (by decide)).2.2.1
  have hl : 0 < rates.length := by
    have : ((1 : Int) - 0).tdiv 1 = 1 := rfl
    dsimp only at h2
    omega
  exact ⟨rates, h1, s', hs, _, C140_counters hin hde h3 (by decide) hs (List.getElem?_eq_getElem hl) (c := 3)
    (by decide)⟩

end Bliss.Gpu
