import Verif.Hit.Props
import Verif.Drift.Symmetry
import Mathlib.Algebra.Order.BigOperators.Ring.Finset
import Mathlib.Algebra.BigOperators.Fin

/-!
# From a spectrum to its hits (C87)

`integrate_drifts` followed by `hit_search` on one coarse channel: which hits a drifting tone gives.
-/

namespace Bliss.Hit

open Bliss.Comp (Coord Grid Protohit Search findThresh)
open Bliss.Drift Bliss.Float

/-! ## Model -/

section
variable {F : Type} [Zero F] [Add F] [Sub F] [Div F] [IntCast F] [LT F] [DecidableLT F] [OfNat F 2]

/-- The `frequency_drift_plane` that the integrator returns (`drift_integration_cpu.cpp:32-46,
157-161`, `frequency_drift_plane.cpp:8-10`): the plane and the counters are dense arrays with one
row per drift; the drift list and the number of time steps are stored as given. -/
def planeOf (inp : Input F) (a : Acc F) (rates : List (Rate Fl)) : Plane F Fl where
  grid := ⟨rates.length, inp.numChannels⟩
  val c := (a.plane (c.1 * inp.numChannels + c.2)).getD 0
  rfi c :=
    let at_ (b : Buf UInt8) := ((b (c.1 * inp.numChannels + c.2)).getD 0).toNat
    (at_ a.lowsk, at_ a.highsk, at_ a.rolloff)
  steps := inp.timeSteps
  rates := rates.map fun r => ⟨r.hzPerSec, r.desmear⟩

/-- `integrate_drifts` and then `hit_search` on a coarse channel whose noise estimate is
(`noisePower`, `floor`) (`integrate_drifts.cpp:51-74`, `hit_search.cpp:17-58`). -/
def driftSearch (R24 : Rounding 24) (R53 : Rounding 53) (hz : Fl → Fl) (ar : Arith F Fl)
    (fltMin : F) (junk : Coord → Int) (cc : Channel Fl) (inp : Input F) (ro : RateOptions)
    (noisePower floor : F) (o : Options F) : Outcome (List (Hit F Fl)) := do
  let (a, rates) ← integrateDrifts R24 R53 hz inp ro
  hitSearch ar fltMin junk cc (planeOf inp a rates) noisePower floor o

end

/-! ## Nothing strong is missed -/

section
variable {F : Type} [Zero F] [Add F] [Sub F] [Div F] [IntCast F] [LT F] [DecidableLT F] [OfNat F 2]

omit [Add F] [IntCast F] in
/-- What the search makes of a plane: each reported hit is the strongest cell of its cluster, and
every cell above the threshold belongs to a cluster. -/
theorem hitSearch_covers (ar : Arith F Fl) (fltMin : F) (junk : Coord → Int) (cc : Channel Fl)
    (p : Plane F Fl) (noisePower floor : F) (o : Options F)
    (hm : o.method = .connectedComponents)
    (htrans : ∀ a b c : F, a < b → b < c → a < c) (hirr : ∀ a : F, ¬ a < a)
    (hr : p.grid.drifts ≤ p.rates.length)
    (hhalf : ∀ v : F, o.thr < v → o.thr / 2 < v) (hmin : ∀ v : F, o.thr < v → fltMin < v) :
    ∃ cs hs, findThresh (toSearch ar p noisePower floor o) fltMin = .ok cs ∧
      hitSearch ar fltMin junk cc p noisePower floor o = .ok hs ∧
      List.Forall₂ (Describes ar cc p noisePower floor o.thr) cs hs ∧
      ∀ x, p.grid.has x → o.thr < (toSearch ar p noisePower floor o).snr x →
        ∃ c ∈ cs, x ∈ c.locations ∧ ∃ h ∈ hs, Describes ar cc p noisePower floor o.thr c h ∧
          h.snr = (toSearch ar p noisePower floor o).snr c.indexMax ∧
          ¬ h.snr < (toSearch ar p noisePower floor o).snr x := by
  obtain ⟨cs, hs, h1, h2, h3⟩ := C18_hit_search_partial ar fltMin junk cc p noisePower floor o
    htrans hirr hr hhalf hmin
  have hf : findThresh (toSearch ar p noisePower floor o) fltMin = .ok cs := by
    unfold protohitSearch at h1
    rw [if_neg (by omega), hm] at h1
    exact h1
  refine ⟨cs, hs, hf, h2, h3, fun x hx ht => ?_⟩
  obtain ⟨cs', e1, _, _, e4⟩ :=
    Comp.C12_clusters_disjoint_complete_partial (toSearch ar p noisePower floor o) fltMin
  rw [hf] at e1
  obtain rfl := Outcome.ok.inj e1
  have hmem := (e4 hhalf).1 x hx ht
  obtain ⟨c, hc, hxc⟩ := List.mem_flatMap.1 hmem
  obtain ⟨k1, k2, k3, _, k5⟩ := Comp.C13_peak_is_strongest_partial _ fltMin htrans hirr hhalf hmin hf hc
  obtain ⟨i, hi, rfl⟩ := List.getElem_of_mem hc
  have hlen := h3.length_eq
  have hd : Describes ar cc p noisePower floor o.thr cs[i] (hs[i]'(by omega)) :=
    (List.forall₂_iff_get.1 h3).2 i hi (by omega)
  have hsnr : (hs[i]'(by omega)).snr = (toSearch ar p noisePower floor o).snr cs[i].indexMax := by
    obtain ⟨r, r1, _, r3⟩ := hd.rate
    rw [r3]
    unfold Search.snr
    have : (toSearch ar p noisePower floor o).noise cs[i].indexMax.1 =
        noiseOf ar noisePower p.steps r := by
      simp only [toSearch]
      rw [hd.peak.1] at r1
      rw [r1]
    rw [this, hd.peak.1, hd.peak.2]
    rfl
  refine ⟨cs[i], hc, hxc, hs[i]'(by omega), List.getElem_mem _, hd, hsnr, ?_⟩
  rw [hsnr]
  have := k5 x hxc
  rw [k2] at this
  exact this

/-- The noise that the search uses for a drift with `bins` desmear bins: the noise power divided by
the square root of the number of integrated samples. -/
def driftNoise (ar : Arith F Fl) (noisePower : F) (samples : Int) : F :=
  ar.toF (ar.div (ar.toD noisePower) (ar.sqrt (ar.ofInt samples)))

omit [Zero F] [Add F] [IntCast F] [LT F] [DecidableLT F] [OfNat F 2] in
theorem snr_cell [Zero F] [Add F] [IntCast F] [LT F] [DecidableLT F] [OfNat F 2]
    {ar : Arith F Fl} {inp : Input F} {a : Acc F} {rates : List (Rate Fl)}
    {noisePower floor : F} {o : Options F} {i : Nat} {r : Rate Fl} (hr : rates[i]? = some r) {c : Int}
    {v : F} (hv : a.plane (i * inp.numChannels + c) = some v) :
    (toSearch ar (planeOf inp a rates) noisePower floor o).snr (i, c) =
      (v - floor) / driftNoise ar noisePower (inp.timeSteps * r.desmear) := by
  simp only [Search.snr, toSearch, planeOf, driftNoise, noiseOf, hv, Option.getD_some,
    Int.toNat_natCast, List.getElem?_map, hr, Option.map_some]

/-- **C87, detection.** For every spectrum, drift range, noise estimate, channel and search
distance as in C07, and any threshold from `FLT_MIN` up: the pipeline returns, and for every drift
`i` and start channel `c` such that the mean power on that drifting line exceeds the noise floor by
more than the threshold (in units of the noise of that drift), a hit is reported whose SNR is not
below that line's SNR. The floats need only a transitive irreflexive `<`.

Missing: the cases where C07 is undefined, and thresholds below the smallest normal float. -/
theorem C87_no_strong_line_missed_partial (R24 : Rounding 24) (R53 : Rounding 53) (hz : Fl → Fl)
    (ar : Arith F Fl) (fltMin : F) (junk : Coord → Int) (cc : Channel Fl) {inp : Input F}
    {grid : Nat → Int → F} {mask : Nat → Int → UInt8} (hin : Holds inp grid mask)
    (hview : inp.specOffset = 0 ∧ inp.rfiOffset = 0) {ro : RateOptions} (hT : 2 ≤ inp.timeSteps)
    (hT' : (inp.timeSteps : Int) - 1 ≤ 2 ^ 24) (hstep : ro.step ≠ 0)
    (hne : 0 < (ro.high - ro.low).tdiv ro.step)
    (hrange : ∀ i : Nat, (i : Int) < (ro.high - ro.low).tdiv ro.step →
      |ro.low + i * ro.step| < 2 ^ 22 ∧ 2 * |ro.low + i * ro.step| ≤ inp.numChannels)
    (noisePower floor : F) (o : Options F) (hm : o.method = .connectedComponents)
    (htrans : ∀ a b c : F, a < b → b < c → a < c) (hirr : ∀ a : F, ¬ a < a)
    (hhalf : ∀ v : F, o.thr < v → o.thr / 2 < v) (hmin : ∀ v : F, o.thr < v → fltMin < v) :
    ∃ (hs : List (Hit F Fl)) (desmear : Nat → Int) (off : Nat → Nat → Int),
      driftSearch R24 R53 hz ar fltMin junk cc inp ro noisePower floor o = .ok hs ∧
      ∀ i : Nat, (i : Int) < (ro.high - ro.low).tdiv ro.step →
        StraightPath (ro.low + i * ro.step) inp.timeSteps (2 ^ (-23 : ℤ) + 2 ^ (-51 : ℤ)) (off i) ∧
        1 ≤ desmear i ∧
        ∀ c : Int, 0 ≤ c → c < inp.numChannels →
          let mean := pathSum grid (desmear i)
            (path inp.numChannels inp.timeSteps (decide (0 ≤ ro.low + i * ro.step))
              (ro.low + i * ro.step) (desmear i).toNat (off i) c) / ((inp.timeSteps : Int) : F)
          let snr := (mean - floor) / driftNoise ar noisePower (inp.timeSteps * desmear i)
          o.thr < snr → ∃ h ∈ hs, ¬ h.snr < snr := by
  obtain ⟨a, rates, off, h1, h2, h3⟩ :=
    C07_defined_partial R24 R53 hz hin hview hT hT' hstep hne hrange
  obtain ⟨cs, hs, _, e2, _, e4⟩ := hitSearch_covers ar fltMin junk cc (planeOf inp a rates)
    noisePower floor o hm htrans hirr (by simp [planeOf]) hhalf hmin
  refine ⟨hs, fun i => match rates[i]? with | some r => r.desmear | none => 1, off, ?_, ?_⟩
  · simp only [driftSearch, h1, Outcome.bind_ok]; exact e2
  intro i hi
  have hil : i < rates.length := by omega
  have hget := List.getElem?_eq_getElem hil
  obtain ⟨_, g2, g3, g4, g5⟩ := h3 i _ hget
  simp only [hget, ← g2]
  refine ⟨g4, g3, fun c h0 hc => ?_⟩
  intro hthr
  have hcell := snr_cell (ar := ar) (noisePower := noisePower) (floor := floor) (o := o) hget
    (g5 c h0 hc).1
  obtain ⟨_, _, _, h, hh, _, _, hlt⟩ := e4 (i, c) ⟨by simp, by simpa [planeOf] using hil, h0, hc⟩
    (by rw [hcell]; exact hthr)
  rw [hcell] at hlt
  exact ⟨h, hh, hlt⟩

/-- **C87, the flags of a hit.** In the situation of `C87_no_strong_line_missed_partial`, every
reported hit carries the RFI counters of one drifting line that is itself above the threshold: the
numbers of samples of that line with the flags low spectral kurtosis (2), high spectral kurtosis (4)
and rolloff (1), each modulo 256.

Missing: it need not be the line of the hit itself (`C16_counts_not_at_peak`), and the cases excluded
above. -/
theorem C87_hit_rfi_counts_partial (R24 : Rounding 24) (R53 : Rounding 53) (hz : Fl → Fl)
    (ar : Arith F Fl) (fltMin : F) (junk : Coord → Int) (cc : Channel Fl) {inp : Input F}
    {grid : Nat → Int → F} {mask : Nat → Int → UInt8} (hin : Holds inp grid mask)
    (hview : inp.specOffset = 0 ∧ inp.rfiOffset = 0) {ro : RateOptions} (hT : 2 ≤ inp.timeSteps)
    (hT' : (inp.timeSteps : Int) - 1 ≤ 2 ^ 24) (hstep : ro.step ≠ 0)
    (hne : 0 < (ro.high - ro.low).tdiv ro.step)
    (hrange : ∀ i : Nat, (i : Int) < (ro.high - ro.low).tdiv ro.step →
      |ro.low + i * ro.step| < 2 ^ 22 ∧ 2 * |ro.low + i * ro.step| ≤ inp.numChannels)
    (noisePower floor : F) (o : Options F) (hm : o.method = .connectedComponents)
    (htrans : ∀ a b c : F, a < b → b < c → a < c) (hirr : ∀ a : F, ¬ a < a)
    (hhalf : ∀ v : F, o.thr < v → o.thr / 2 < v) (hmin : ∀ v : F, o.thr < v → fltMin < v) :
    ∃ (hs : List (Hit F Fl)) (desmear : Nat → Int) (off : Nat → Nat → Int),
      driftSearch R24 R53 hz ar fltMin junk cc inp ro noisePower floor o = .ok hs ∧
      (∀ i : Nat, (i : Int) < (ro.high - ro.low).tdiv ro.step →
        StraightPath (ro.low + i * ro.step) inp.timeSteps (2 ^ (-23 : ℤ) + 2 ^ (-51 : ℤ)) (off i) ∧
        1 ≤ desmear i) ∧
      ∀ h ∈ hs, ∃ (i : Nat) (c : Int), (i : Int) < (ro.high - ro.low).tdiv ro.step ∧ 0 ≤ c ∧
        c < inp.numChannels ∧
        let line := path inp.numChannels inp.timeSteps (decide (0 ≤ ro.low + i * ro.step))
          (ro.low + i * ro.step) (desmear i).toNat (off i) c
        o.thr < (pathSum grid (desmear i) line / ((inp.timeSteps : Int) : F) - floor) /
          driftNoise ar noisePower (inp.timeSteps * desmear i) ∧
        h.rfi.lookup 2 = some (pathFlags mask 2 line % 256) ∧
        h.rfi.lookup 4 = some (pathFlags mask 4 line % 256) ∧
        h.rfi.lookup 1 = some (pathFlags mask 1 line % 256) := by
  obtain ⟨a, rates, off, h1, h2, h3⟩ :=
    C07_defined_partial R24 R53 hz hin hview hT hT' hstep hne hrange
  obtain ⟨cs, hs, e1, e2, e3, _⟩ := hitSearch_covers ar fltMin junk cc (planeOf inp a rates)
    noisePower floor o hm htrans hirr (by simp [planeOf]) hhalf hmin
  refine ⟨hs, fun i => match rates[i]? with | some r => r.desmear | none => 1, off, ?_, ?_, ?_⟩
  · simp only [driftSearch, h1, Outcome.bind_ok]; exact e2
  · intro i hi
    have hil : i < rates.length := by omega
    have hget := List.getElem?_eq_getElem hil
    obtain ⟨_, g2, g3, g4, _⟩ := h3 i _ hget
    simp only [hget, ← g2]
    exact ⟨g4, g3⟩
  intro h hh
  obtain ⟨j, hj, rfl⟩ := List.getElem_of_mem hh
  have hlen := e3.length_eq
  have hjc : j < cs.length := by omega
  have hd : Describes ar cc (planeOf inp a rates) noisePower floor o.thr cs[j] hs[j] :=
    (List.forall₂_iff_get.1 e3).2 j hjc hj
  obtain ⟨x, rest, x1, x2, x3, _⟩ := Comp.C16_counts_at_first_cell_partial _ fltMin hhalf hmin e1
    (List.getElem_mem hjc)
  obtain ⟨cs', f1, _, f3, _⟩ :=
    Comp.C12_clusters_disjoint_complete_partial
      (toSearch ar (planeOf inp a rates) noisePower floor o) fltMin
  rw [e1] at f1
  obtain rfl := Outcome.ok.inj f1
  obtain ⟨hx, _⟩ := f3 _ (List.getElem_mem hjc) x (by rw [x1]; exact List.mem_cons_self)
  obtain ⟨xi, c⟩ := x
  obtain ⟨y1, y2, y3, y4⟩ := hx
  simp only [toSearch, planeOf] at y1 y2 y3 y4
  obtain ⟨i, rfl⟩ : ∃ i : Nat, xi = i := ⟨xi.toNat, (Int.toNat_of_nonneg y1).symm⟩
  have hil : i < rates.length := by exact_mod_cast y2
  have hget := List.getElem?_eq_getElem hil
  obtain ⟨_, g2, g3, g4, g5⟩ := h3 i _ hget
  obtain ⟨p1, l, hi, ro', q1, q2, q3, q4, q5, q6⟩ := g5 c y3 y4
  refine ⟨i, c, by omega, y3, y4, ?_⟩
  simp only [hget, ← g2]
  have hcell := snr_cell (ar := ar) (noisePower := noisePower) (floor := floor) (o := o) hget p1
  rw [hcell] at x2
  refine ⟨x2, ?_⟩
  have hc := hd.counts _ _ _ x3
  simp only [q1, q2, q3, Option.getD_some] at hc
  rw [q4, q5, q6] at hc
  exact hc

end

/-! ## A tone is found where it is -/

/-- At every time step the tone is the strongest channel and has positive power. The power may vary
from one time step to the next. -/
structure Dominates {F : Type} [Zero F] [LT F] (N T : Nat) (grid : Nat → Int → F) (ch : Nat → Int) : Prop where
  strongest : ∀ t < T, ∀ c : Int, 0 ≤ c → c < N → c ≠ ch t → grid t c < grid t (ch t)
  positive : ∀ t < T, 0 < grid t (ch t)

section
variable {F : Type} [Field F] [LinearOrder F] [IsStrictOrderedRing F]

/-- What the sample of time `t` contributes to a cell: nothing beyond the band edge. -/
def contribution (N : Nat) (up : Bool) (span : Int) (off : Nat → Int) (grid : Nat → Int → F)
    (c : Int) (t : Nat) : F :=
  match pathChannel N up span (off t) 0 c with
  | some ch => grid t ch
  | none => 0

omit [LinearOrder F] [IsStrictOrderedRing F] in
theorem pathSum_one (N : Nat) (up : Bool) (span : Int) (off : Nat → Int) (grid : Nat → Int → F)
    (c : Int) (T : Nat) :
    pathSum grid 1 (path N T up span 1 off c) =
      ∑ t ∈ Finset.range T, contribution N up span off grid c t := by
  induction T with
  | zero => simp [path, pathSum]
  | succ T ih =>
    rw [Finset.sum_range_succ, ← ih]
    unfold pathSum path contribution
    rw [List.range_succ (n := T), List.flatMap_append, List.foldl_append]
    simp only [List.flatMap_cons, List.flatMap_nil, List.append_nil, List.range_one]
    cases h : pathChannel N up span (off T) 0 c with
    | none => simp [h]
    | some ch => simp [h]

/-- The tone of the property: at time step `t` of `T` it is in channel `ch t`, the channel nearest
to a straight line that starts at `c₀` and drifts by `d` channels, and nowhere within rounding
error of the boundary between two channels. -/
structure ToneLine (T : Nat) (c₀ d : Int) (ch : Nat → Int) : Prop where
  near : ∀ t < T, |(ch t : ℚ) - (c₀ + d * t / ((T : ℚ) - 1))| < 1 / 2 - |(d : ℚ)| * 2 ^ (-22 : ℤ)

theorem tone_offsets {T : Nat} {c₀ d : Int} {ch : Nat → Int} (h : ToneLine T c₀ d ch)
    {off : Nat → Int} (hs : StraightPath d T (2 ^ (-23 : ℤ) + 2 ^ (-51 : ℤ)) off) :
    ∀ t < T, ch t = c₀ + off t := by
  intro t ht
  have h1 := h.near t ht
  have h2 := hs.close t ht
  have h3 : |((ch t - (c₀ + off t) : Int) : ℚ)| < 1 := by
    have e : ((ch t - (c₀ + off t) : Int) : ℚ) =
        ((ch t : ℚ) - (c₀ + d * t / ((T : ℚ) - 1))) - ((off t : ℚ) - d * t / ((T : ℚ) - 1)) := by
      push_cast; ring
    rw [e]
    have h4 := abs_sub ((ch t : ℚ) - (c₀ + d * t / ((T : ℚ) - 1))) ((off t : ℚ) - d * t / ((T : ℚ) - 1))
    have h5 : |(d : ℚ)| * (2 ^ (-23 : ℤ) + 2 ^ (-51 : ℤ)) ≤ |(d : ℚ)| * 2 ^ (-22 : ℤ) :=
      mul_le_mul_of_nonneg_left (by norm_num) (abs_nonneg _)
    have h6 := add_lt_add_of_lt_of_le h1 (h2.trans (add_le_add_right h5 _))
    exact lt_of_le_of_lt h4 (lt_of_lt_of_eq h6 (by ring))
  have h4 : |ch t - (c₀ + off t)| < 1 := by exact_mod_cast h3
  rw [Int.abs_lt_one_iff] at h4
  omega

end

section
variable {F : Type} [Zero F] [Add F] [Div F] [IntCast F]

/-- The rates of a successful `compute_drifts`, none of which is desmeared when desmearing is off
or no drift exceeds one channel per time step. -/
theorem rates_plain_of {R24 : Rounding 24} {hz : Fl → Fl} {T : Nat} {ro : RateOptions}
    {rates : List (Rate Fl)} (hc : computeDrifts R24 hz T ro = .ok rates) (hT : 2 ≤ T)
    (hT' : (T : Int) - 1 ≤ 2 ^ 24) {i : Nat} {r : Rate Fl} (hr : rates[i]? = some r)
    (hsmall : |ro.low + i * ro.step| ≤ 2 ^ 24) :
    r.hzPerSec = hz (.fin (R24.r (((ro.low + i * ro.step : Int) : ℚ) / ((T : ℚ) - 1)))) ∧
    ((ro.desmear = false ∨ |ro.low + i * ro.step| ≤ (T : Int) - 1) → r.desmear = 1) := by
  have hmk : mkRate R24 hz T ro i = .ok r := by
    unfold computeDrifts at hc
    split at hc
    · cases hc
    dsimp only at hc
    split at hc
    · cases hc
    obtain ⟨h2, h3⟩ := mkRates_inv hc
    have hi : i < rates.length := by
      rw [List.getElem?_eq_some_iff] at hr; exact hr.1
    obtain ⟨r', h4, h5⟩ := h3 i (by omega)
    rw [hr] at h4
    obtain rfl := Option.some.inj h4
    exact h5
  obtain ⟨_, _, m3, m4, m5⟩ := mkRate_inv hmk
  rw [slope_eq R24 hsmall hT hT'] at m3
  refine ⟨by rw [m4, m3], ?_⟩
  rintro (hf | hle)
  · rw [hf] at m5
    simp only [desmearBins, Bool.false_eq_true, if_false] at m5
    exact (Outcome.ok.inj m5).symm
  · rw [m3] at m5
    have hn : (0 : ℚ) < (T : ℚ) - 1 := by
      have : (2 : ℚ) ≤ T := by exact_mod_cast hT
      linarith
    have hle' : |((ro.low + i * ro.step : Int) : ℚ)| ≤ (T : ℚ) - 1 := by
      have : ((|ro.low + i * ro.step| : Int) : ℚ) ≤ (((T : Int) - 1 : Int) : ℚ) := by
        exact_mod_cast hle
      push_cast at this ⊢
      exact this
    have hq : |((ro.low + i * ro.step : Int) : ℚ) / ((T : ℚ) - 1)| ≤ 1 := by
      rw [abs_div, abs_of_pos hn, div_le_one hn]; exact hle'
    rw [abs_le] at hq
    have u1 := R24.mono _ _ hq.2
    have u2 := R24.mono _ _ hq.1
    have e1 := R24.int 1 (by norm_num)
    have e2 := R24.int (-1) (by norm_num)
    push_cast at e1 e2
    rw [e1] at u1
    rw [e2] at u2
    have := desmearBins_le (D := 1) m5 (by rw [Int.cast_one]; exact abs_le.2 ⟨u2, u1⟩)
    simp at this
    omega

/-- The rates of a successful `integrate_drifts`, none of which is desmeared when desmearing is off
or no drift exceeds one channel per time step. -/
theorem rates_plain {R24 : Rounding 24} {R53 : Rounding 53} {hz : Fl → Fl} {inp : Input F}
    {ro : RateOptions} {a : Acc F} {rates : List (Rate Fl)}
    (h : integrateDrifts R24 R53 hz inp ro = .ok (a, rates)) (hT : 2 ≤ inp.timeSteps)
    (hT' : (inp.timeSteps : Int) - 1 ≤ 2 ^ 24) {i : Nat} {r : Rate Fl} (hr : rates[i]? = some r)
    (hsmall : |ro.low + i * ro.step| ≤ 2 ^ 24) :
    r.hzPerSec = hz (.fin (R24.r (((ro.low + i * ro.step : Int) : ℚ) / ((inp.timeSteps : ℚ) - 1)))) ∧
    ((ro.desmear = false ∨ |ro.low + i * ro.step| ≤ (inp.timeSteps : Int) - 1) → r.desmear = 1) := by
  have hc : computeDrifts R24 hz inp.timeSteps ro = .ok rates := by
    unfold integrateDrifts at h
    cases hc : computeDrifts R24 hz inp.timeSteps ro with
    | throws e => simp [hc] at h
    | ub => simp [hc] at h
    | ok rs =>
      rw [hc] at h
      simp only [Outcome.bind_ok] at h
      cases rs with
      | nil => simp at h
      | cons r rs =>
        simp only at h
        cases hi : integrateCpu (flOps R53) inp (r :: rs) with
        | throws e => simp [hi] at h
        | ub => simp [hi] at h
        | ok a' =>
          simp only [hi, Outcome.bind_ok] at h
          have := Outcome.ok.inj h
          simp only [Prod.mk.injEq] at this
          rw [this.2]
  exact rates_plain_of hc hT hT' hr hsmall

end

section
variable {F : Type} [Field F] [LinearOrder F] [IsStrictOrderedRing F]

omit [IsStrictOrderedRing F] in
theorem pathChannel_inside {N T : Nat} {d : Int} {ε : ℚ} {off : Nat → Int}
    (hs : StraightPath d T ε off) {t : Nat} (ht : t < T) {c : Int} (h0 : 0 ≤ c) (hc : c < N)
    {x : Int} (hx : pathChannel N (decide (0 ≤ d)) d (off t) 0 c = some x) :
    x = c + off t ∧ 0 ≤ x ∧ x < N := by
  have hin := hs.inside t ht
  unfold pathChannel at hx
  by_cases hd : 0 ≤ d
  · simp only [hd, decide_true, if_true] at hx
    rw [min_eq_left hd, max_eq_right hd] at hin
    split at hx
    · have := Option.some.inj hx; omega
    · cases hx
  · simp only [hd, decide_false, Bool.false_eq_true, if_false] at hx
    rw [min_eq_right (by omega), max_eq_left (by omega)] at hin
    split at hx
    · have := Option.some.inj hx; omega
    · cases hx

/-- **C87, recovery.** Take any spectrum (in exact arithmetic) in which at every time step the
strongest channel is that of a tone on a straight line from channel `c₀`, drifting by `d` channels,
`d` being one of the searched drifts and the line staying in the band. If no desmearing takes place
(option off, or no drift above one channel per time step) and the tone's SNR is above the threshold,
then `integrate_drifts` and `hit_search` return, and one of the hits is the tone: start channel `c₀`,
drift `d`, with the tone's mean power as its SNR. It is the strongest hit, and the only one of that
strength. If moreover nothing but the tone is above the noise floor, its start frequency is exactly
that of channel `c₀`.

Missing: desmeared drifts, and float rounding of the sums. -/
theorem C87_tone_recovered_partial (R24 : Rounding 24) (R53 : Rounding 53) (hz : Fl → Fl)
    (ar : Arith F Fl) (fltMin : F) (junk : Coord → Int) (cc : Channel Fl) {inp : Input F}
    {grid : Nat → Int → F} {mask : Nat → Int → UInt8} (hin : Holds inp grid mask)
    (hview : inp.specOffset = 0 ∧ inp.rfiOffset = 0) {ro : RateOptions} (hT : 2 ≤ inp.timeSteps)
    (hT' : (inp.timeSteps : Int) - 1 ≤ 2 ^ 24) (hstep : ro.step ≠ 0)
    (hrange : ∀ i : Nat, (i : Int) < (ro.high - ro.low).tdiv ro.step →
      |ro.low + i * ro.step| < 2 ^ 22 ∧ 2 * |ro.low + i * ro.step| ≤ inp.numChannels)
    (hplain : ro.desmear = false ∨ ∀ i : Nat, (i : Int) < (ro.high - ro.low).tdiv ro.step →
      |ro.low + i * ro.step| ≤ (inp.timeSteps : Int) - 1)
    {c₀ d : Int} {i₀ : Nat} (hi₀ : (i₀ : Int) < (ro.high - ro.low).tdiv ro.step)
    (hd : d = ro.low + i₀ * ro.step) (hstart : 0 ≤ c₀ ∧ c₀ < inp.numChannels)
    (hstop : 0 ≤ c₀ + d ∧ c₀ + d < inp.numChannels) {ch : Nat → Int}
    (hline : ToneLine inp.timeSteps c₀ d ch)
    (hdom : Dominates inp.numChannels inp.timeSteps grid ch)
    (noisePower floor : F) (o : Options F) (hm : o.method = .connectedComponents)
    (hnoise : 0 < driftNoise ar noisePower inp.timeSteps) (hmin : 0 ≤ fltMin)
    (hthr : fltMin ≤ o.thr)
    (habove : o.thr < ((∑ t ∈ Finset.range inp.timeSteps, grid t (ch t)) / (inp.timeSteps : F) -
      floor) / driftNoise ar noisePower inp.timeSteps) :
    ∃ (hs : List (Hit F Fl)) (h : Hit F Fl),
      driftSearch R24 R53 hz ar fltMin junk cc inp ro noisePower floor o = .ok hs ∧ h ∈ hs ∧
      h.startFreqIndex = c₀ ∧ h.rateIndex = i₀ ∧
      h.driftRate = hz (.fin (R24.r ((d : ℚ) / ((inp.timeSteps : ℚ) - 1)))) ∧
      h.snr = ((∑ t ∈ Finset.range inp.timeSteps, grid t (ch t)) / (inp.timeSteps : F) - floor) /
        driftNoise ar noisePower inp.timeSteps ∧
      (∀ h' ∈ hs, h'.snr ≤ h.snr ∧
        (h'.snr = h.snr → h'.startFreqIndex = c₀ ∧ h'.rateIndex = i₀)) ∧
      ((∀ t < inp.timeSteps, ∀ c : Int, 0 ≤ c → c < inp.numChannels → c ≠ ch t →
          grid t c ≤ floor) → 0 ≤ floor →
        h.binwidth = 0 ∧ h.startFreqMHz = ar.add cc.fch1 (ar.mul cc.foff (ar.ofInt c₀))) := by
  obtain ⟨a, rates, off, h1, h2, h3⟩ :=
    C07_defined_partial R24 R53 hz hin hview hT hT' hstep (by omega) hrange
  have hhalf : ∀ v : F, o.thr < v → o.thr / 2 < v := by
    intro v hv
    have : o.thr / 2 ≤ o.thr := half_le_self (hmin.trans hthr)
    exact lt_of_le_of_lt this hv
  have hlow : ∀ v : F, o.thr < v → fltMin < v := fun v hv => lt_of_le_of_lt hthr hv
  obtain ⟨cs, hs, e1, e2, e3, e4⟩ := hitSearch_covers ar fltMin junk cc (planeOf inp a rates)
    noisePower floor o hm (fun _ _ _ => lt_trans) (fun _ => lt_irrefl _) (by simp [planeOf])
    hhalf hlow
  set s := toSearch ar (planeOf inp a rates) noisePower floor o with hsdef
  set n := driftNoise ar noisePower inp.timeSteps with hn
  have hTF : (0 : F) < (inp.timeSteps : F) := by
    have : 0 < inp.timeSteps := by omega
    exact_mod_cast this
  -- the SNR of each cell
  have hcell : ∀ (i : Nat) (r : Rate Fl), rates[i]? = some r → ∀ c : Int, 0 ≤ c →
      c < inp.numChannels → s.snr (i, c) = ((∑ t ∈ Finset.range inp.timeSteps,
        contribution inp.numChannels (decide (0 ≤ r.span)) r.span (off i) grid c t) /
          (inp.timeSteps : F) - floor) / n := by
    intro i r hr c h0 hc
    have hil : i < rates.length := by
      rw [List.getElem?_eq_some_iff] at hr; exact hr.1
    obtain ⟨_, g2, _, _, g5⟩ := h3 i r hr
    have hrg := hrange i (by omega)
    have hdes : r.desmear = 1 := by
      refine (rates_plain h1 hT hT' hr (by omega)).2 ?_
      rcases hplain with h | h
      · exact Or.inl h
      · exact Or.inr (h i (by omega))
    have := (g5 c h0 hc).1
    rw [hdes] at this
    have hv := snr_cell (ar := ar) (noisePower := noisePower) (floor := floor) (o := o) hr this
    rw [hdes, mul_one, show (1 : Int).toNat = 1 from rfl, pathSum_one, Int.cast_natCast] at hv
    exact hv
  -- the tone's cell
  have hi₀l : i₀ < rates.length := by omega
  have hget₀ := List.getElem?_eq_getElem hi₀l
  obtain ⟨_, g2, _, g4, _⟩ := h3 i₀ _ hget₀
  rw [← hd] at g2
  have hch : ∀ t < inp.timeSteps, ch t = c₀ + off i₀ t := by
    rw [g2] at g4; exact tone_offsets hline g4
  have hin₀ : ∀ t < inp.timeSteps,
      pathChannel inp.numChannels (decide (0 ≤ d)) d (off i₀ t) 0 c₀ = some (ch t) := by
    intro t ht
    have hb := g4.inside t ht
    rw [g2] at hb
    unfold pathChannel
    rw [hch t ht]
    by_cases hd0 : 0 ≤ d
    · rw [min_eq_left hd0, max_eq_right hd0] at hb
      simp only [hd0, decide_true, if_true]
      rw [if_pos (by omega)]
      simp
    · rw [min_eq_right (by omega), max_eq_left (by omega)] at hb
      simp only [hd0, decide_false, Bool.false_eq_true, if_false]
      rw [if_pos (by omega)]
      simp
  have htone : s.snr ((i₀ : Int), c₀) =
      ((∑ t ∈ Finset.range inp.timeSteps, grid t (ch t)) / (inp.timeSteps : F) - floor) / n := by
    rw [hcell i₀ _ hget₀ c₀ hstart.1 hstart.2, g2]
    congr 3
    refine Finset.sum_congr rfl fun t ht => ?_
    unfold contribution
    rw [hin₀ t (Finset.mem_range.1 ht)]
  -- every other cell is weaker
  have hweak : ∀ x : Coord, s.grid.has x → x ≠ ((i₀ : Int), c₀) →
      s.snr x < s.snr ((i₀ : Int), c₀) := by
    rintro ⟨xi, c⟩ ⟨x1, x2, x3, x4⟩ hne
    obtain ⟨i, rfl⟩ := Int.eq_ofNat_of_zero_le x1
    change ((i : Nat) : Int) < ((rates.length : Nat) : Int) at x2
    change c < ((inp.numChannels : Nat) : Int) at x4
    have hil : i < rates.length := by omega
    have hget := List.getElem?_eq_getElem hil
    obtain ⟨_, k2, _, k4, _⟩ := h3 i _ hget
    change s.snr ((i : Int), c) < _
    rw [htone, hcell i _ hget c x3 x4]
    refine div_lt_div_of_pos_right (sub_lt_sub_right (div_lt_div_of_pos_right ?_ hTF) _) hnoise
    have hle : ∀ t < inp.timeSteps, contribution inp.numChannels (decide (0 ≤ rates[i].span))
        rates[i].span (off i) grid c t ≤ grid t (ch t) ∧
        (c + off i t ≠ ch t → contribution inp.numChannels (decide (0 ≤ rates[i].span))
          rates[i].span (off i) grid c t < grid t (ch t)) := by
      intro t ht
      unfold contribution
      cases hp : pathChannel inp.numChannels (decide (0 ≤ rates[i].span)) rates[i].span (off i t) 0 c with
      | none => exact ⟨(hdom.positive t ht).le, fun _ => hdom.positive t ht⟩
      | some y =>
        obtain ⟨y1, y2, y3⟩ := pathChannel_inside k4 ht x3 x4 hp
        dsimp only
        by_cases hy : y = ch t
        · rw [hy]
          exact ⟨le_refl _, fun hne' => absurd (y1.symm.trans hy) hne'⟩
        · have := hdom.strongest t ht y y2 y3 hy
          exact ⟨this.le, fun _ => this⟩
    refine Finset.sum_lt_sum (fun t ht => (hle t (Finset.mem_range.1 ht)).1) ?_
    by_contra hall
    push Not at hall
    have hsame : ∀ t < inp.timeSteps, c + off i t = ch t := by
      intro t ht
      by_contra hne'
      exact absurd ((hle t ht).2 hne') (not_lt.2 (hall t (Finset.mem_range.2 ht)))
    have s0 := hsame 0 (by omega)
    have s1 := hsame (inp.timeSteps - 1) (by omega)
    rw [hch 0 (by omega), k4.start, g4.start] at s0
    rw [hch (inp.timeSteps - 1) (by omega), k4.stop, g4.stop, g2, k2, hd] at s1
    have hc : c = c₀ := by omega
    have hmul : ((i : Int) - i₀) * ro.step = 0 := by
      rw [sub_mul]; omega
    rcases mul_eq_zero.1 hmul with h | h
    · exact hne (by rw [hc, show (i : Int) = i₀ by omega])
    · exact hstep h
  -- the hit
  obtain ⟨c, hc, hxc, h, hh, hdesc, hsnr, hlt⟩ := e4 ((i₀ : Int), c₀)
    ⟨by simp, by simpa [planeOf] using hi₀l, hstart.1, hstart.2⟩ (by rw [htone]; exact habove)
  have hpeak : c.indexMax = ((i₀ : Int), c₀) := by
    by_contra hne
    have hg := hdesc.inPlane
    rw [hdesc.peak.1, hdesc.peak.2] at hg
    have := hweak c.indexMax hg hne
    rw [← hsnr] at this
    exact hlt this
  have hcoord : ∀ h' ∈ hs, s.grid.has (h'.rateIndex, h'.startFreqIndex) ∧
      h'.snr = s.snr (h'.rateIndex, h'.startFreqIndex) := by
    intro h' hh'
    obtain ⟨j, hj, rfl⟩ := List.getElem_of_mem hh'
    have hlen := e3.length_eq
    have hd' := (List.forall₂_iff_get.1 e3).2 j (by omega) hj
    refine ⟨hd'.inPlane, ?_⟩
    obtain ⟨r, r1, _, r3⟩ := hd'.rate
    simp only [List.get_eq_getElem] at r1 r3
    rw [r3]
    unfold Search.snr
    have : s.noise hs[j].rateIndex = noiseOf ar noisePower (planeOf inp a rates).steps r := by
      rw [hsdef]
      simp only [toSearch]
      rw [r1]
    rw [this]
    rfl
  refine ⟨hs, h, ?_, hh, ?_, ?_, ?_, ?_, ?_, ?_⟩
  · simp only [driftSearch, h1, Outcome.bind_ok]; exact e2
  · rw [hdesc.peak.2, hpeak]
  · rw [hdesc.peak.1, hpeak]
  · obtain ⟨r, r1, r2, _⟩ := hdesc.rate
    rw [hdesc.peak.1, hpeak] at r1
    simp only [planeOf, Int.toNat_natCast, List.getElem?_map, hget₀, Option.map_some,
      Option.some.injEq] at r1
    rw [r2, ← r1]
    have := (rates_plain h1 hT hT' hget₀ (by have := hrange i₀ hi₀; omega)).1
    rw [← hd] at this
    exact this
  · rw [hsnr, hpeak, htone]
  · intro h' hh'
    obtain ⟨q1, q2⟩ := hcoord h' hh'
    rw [hsnr, hpeak, q2]
    by_cases he : (h'.rateIndex, h'.startFreqIndex) = ((i₀ : Int), c₀)
    · rw [he]
      simp only [Prod.mk.injEq] at he
      exact ⟨le_refl _, fun _ => ⟨he.2, he.1⟩⟩
    · have := hweak _ q1 he
      exact ⟨this.le, fun heq => absurd heq (ne_of_lt this)⟩
  · intro hback hfl
    have honly : ∀ x ∈ c.locations, x.1 = i₀ → x.2 = c₀ := by
      rintro ⟨xi, xc⟩ hx hxi
      simp only at hxi ⊢
      subst hxi
      obtain ⟨cs', f1, _, f3, _⟩ := Comp.C12_clusters_disjoint_complete_partial s fltMin
      rw [e1] at f1
      obtain rfl := Outcome.ok.inj f1
      obtain ⟨⟨_, _, x3, x4⟩, hx'⟩ := f3 c hc _ hx
      by_contra hne
      have hcl := hcell i₀ _ hget₀ xc x3 x4
      rw [hcl, g2] at hx'
      have hle : ∑ t ∈ Finset.range inp.timeSteps, contribution inp.numChannels (decide (0 ≤ d)) d
          (off i₀) grid xc t ≤ ∑ _t ∈ Finset.range inp.timeSteps, floor := by
        refine Finset.sum_le_sum fun t ht => ?_
        rw [Finset.mem_range] at ht
        unfold contribution
        cases hp : pathChannel inp.numChannels (decide (0 ≤ d)) d (off i₀ t) 0 xc with
        | none => exact hfl
        | some y =>
          rw [g2] at g4
          obtain ⟨y1, y2, y3⟩ := pathChannel_inside g4 ht x3 x4 hp
          exact hback t ht y y2 y3 (by rw [hch t ht, y1]; omega)
      rw [Finset.sum_const, Finset.card_range, nsmul_eq_mul] at hle
      have h6 : (∑ t ∈ Finset.range inp.timeSteps, contribution inp.numChannels (decide (0 ≤ d)) d
          (off i₀) grid xc t) / (inp.timeSteps : F) - floor ≤ 0 := by
        rw [sub_nonpos, div_le_iff₀ hTF, mul_comm floor]; exact hle
      have h7 := div_nonpos_of_nonpos_of_nonneg h6 hnoise.le
      have h8 : 0 ≤ s.thr / 2 := div_nonneg (hmin.trans hthr) (by norm_num)
      exact absurd hx' (not_lt.2 (h7.trans h8))
    obtain ⟨lo, l1, l2, _, _, _, l6, _⟩ :=
      Comp.C15_extent_brackets_peak_partial s fltMin hhalf hlow e1 hc
    rw [hpeak] at l1 l2 l6
    have m1 := honly _ l1 rfl
    have m2 := honly _ l2 rfl
    simp only at m1 m2
    have hbw : c.binwidth = 0 := by omega
    refine ⟨by rw [hdesc.bandwidth.1, hbw], ?_⟩
    rw [hdesc.freq, l6, hbw, m1]
    simp

end

/-! ## Non-vacuity and counterexamples -/

/-- A rational stand-in for the float arithmetic: the noise is 1. -/
def unitArith (F : Type) [One F] : Arith F Fl :=
  ⟨fun _ => .nan, fun _ => 1, fun n => .fin n, fun _ b => b, fun _ b => b, fun a _ => a, id, id, .nan⟩

/-- The hypotheses of `C87_tone_recovered_partial` (and of `C87_no_strong_line_missed_partial`) are
met by a tone that drifts by 2 channels over 3 time steps in a band of 8, with drifts -2, ..., 2
searched and with the power falling from 11 to 9. -/
example :
    let ch : Nat → Int := fun t => 2 + t
    let grid : Nat → Int → ℚ := fun t c => if c = ch t then 11 - t else 0
    let inp := denseInput 3 8 grid (fun _ _ => 0)
    let ro : RateOptions := { low := -2, high := 3, step := 1 }
    Holds inp grid (fun _ _ => 0) ∧ (inp.specOffset = 0 ∧ inp.rfiOffset = 0) ∧
      2 ≤ inp.timeSteps ∧ (inp.timeSteps : Int) - 1 ≤ 2 ^ 24 ∧ ro.step ≠ 0 ∧
      (∀ i : Nat, (i : Int) < (ro.high - ro.low).tdiv ro.step →
        |ro.low + i * ro.step| < 2 ^ 22 ∧ 2 * |ro.low + i * ro.step| ≤ inp.numChannels ∧
          |ro.low + i * ro.step| ≤ (inp.timeSteps : Int) - 1) ∧
      ((4 : Nat) : Int) < (ro.high - ro.low).tdiv ro.step ∧ (2 : Int) = ro.low + (4 : Nat) * ro.step ∧
      ToneLine inp.timeSteps 2 2 ch ∧ Dominates inp.numChannels inp.timeSteps grid ch ∧
      (0 : ℚ) < driftNoise (unitArith ℚ) 1 inp.timeSteps ∧
      (5 : ℚ) < ((∑ t ∈ Finset.range inp.timeSteps, grid t (ch t)) / (inp.timeSteps : ℚ) - 0) /
        driftNoise (unitArith ℚ) 1 inp.timeSteps ∧
      (∀ t < inp.timeSteps, ∀ c : Int, 0 ≤ c → c < inp.numChannels → c ≠ ch t → grid t c ≤ 0) := by
  intro ch grid inp ro
  have hr : (ro.high - ro.low).tdiv ro.step = 5 := rfl
  refine ⟨denseInput_holds _ _ _ _, ⟨rfl, rfl⟩, by simp [inp, denseInput], by simp [inp, denseInput],
    by simp [ro], ?_, by rw [hr]; norm_num, by simp [ro], ⟨?_⟩, ⟨?_, ?_⟩, ?_, ?_, ?_⟩
  · intro i hi
    rw [hr] at hi
    have h1 : |ro.low + i * ro.step| ≤ 2 := by simp only [ro]; rw [abs_le]; omega
    simp only [inp, denseInput]
    push_cast
    omega
  · intro t _
    simp only [ch, inp, denseInput]
    push_cast
    rw [show (2 + (t : ℚ) - (2 + 2 * t / ((3 : ℚ) - 1))) = 0 by ring]
    norm_num
  · intro t ht c _ _ hne
    have ht' : t < 3 := ht
    simp only [grid, hne, if_false, if_true]
    have : (t : ℚ) < 3 := by exact_mod_cast ht'
    linarith
  · intro t ht
    have ht' : t < 3 := ht
    simp only [grid, if_true]
    have : (t : ℚ) < 3 := by exact_mod_cast ht'
    linarith
  · simp [driftNoise, unitArith]
  · simp only [driftNoise, unitArith, inp, denseInput, grid, if_true, Finset.sum_range_succ,
      Finset.sum_range_zero]
    norm_num
  · intro t _ c _ _ hne
    simp [grid, hne]

theorem forLoop_congr {σ : Type} {n : Nat} {f g : Nat → σ → Outcome σ} {x : σ}
    (h : ∀ k < n, ∀ y, f k y = g k y) : forLoop n f x = forLoop n g x := by
  induction n with
  | zero => rfl
  | succ n ih =>
    rw [forLoop_succ, forLoop_succ, ih fun k hk => h k (by omega)]
    cases forLoop n g x with
    | ok y => simp only [Outcome.bind_ok]; exact h n (by omega) y
    | throws e => rfl
    | ub => rfl

/-- The integrator uses a slope only through its sign and its offsets. -/
theorem integrate_one_congr {F : Type} [Zero F] [Add F] [Div F] [IntCast F] {ops ops' : SlopeOps Fl}
    {inp : Input F} {r : Rate Fl} (hsign : ops.nonneg r.slope = ops'.nonneg r.slope)
    (hoff : ∀ t < inp.timeSteps, ops.offAt r.slope t = ops'.offAt r.slope t) :
    integrateCpu ops inp [r] = integrateCpu ops' inp [r] := by
  unfold integrateCpu
  rw [forLoop_congr (g := rateBody ops' inp [r])]
  intro k hk y
  obtain rfl : k = 0 := by simpa using hk
  show driftBody ops inp r 0 y = driftBody ops' inp r 0 y
  unfold driftBody
  refine forLoop_congr fun t ht y => ?_
  unfold timeBody
  rw [hoff t ht]
  cases ops'.offAt r.slope t with
  | ok off =>
    simp only [Outcome.bind_ok]
    refine forLoop_congr fun k _ y => ?_
    unfold desmearBody
    rw [hsign]
  | throws e => rfl
  | ub => rfl

/-- Offsets of the drift by `m` channels per time step. -/
def steadyOps (m : Int) : SlopeOps Fl := ⟨fun _ => true, fun _ t => .ok (m * t)⟩

/-- One searched drift of `m ≥ 0` channels over two time steps. -/
theorem driftSearch_one (R24 : Rounding 24) (R53 : Rounding 53) (hz : Fl → Fl) (ar : Arith Int Fl)
    (fltMin : Int) (junk : Coord → Int) (cc : Channel Fl) (inp : Input Int)
    (hT : inp.timeSteps = 2) (m : Nat) (hm : m ≤ 100) (noisePower floor : Int) (o : Options Int) :
    driftSearch R24 R53 hz ar fltMin junk cc inp { low := m, high := m + 1, step := 1 } noisePower
        floor o =
      (do
        let r : Rate Fl := ⟨0, .fin m, hz (.fin m), m, max 1 m⟩
        let a ← integrateCpu (steadyOps m) inp [r]
        hitSearch ar fltMin junk cc (planeOf inp a [r]) noisePower floor o) := by
  have hs : (Fl.ofInt R24 ((m : Int) + (0 : Nat) * 1)).divF R24
      (Fl.ofInt R24 (((2 : Nat) : Int) - 1)) = .fin m := by
    have h := slope_eq R24 (d := (m : Int) + (0 : Nat) * 1) (T := 2)
      (by rw [abs_of_nonneg (by omega)]; norm_num; omega) (by norm_num) (by norm_num)
    rw [h]
    have e := R24.int (m : Int) (by rw [abs_of_nonneg (by omega)]; omega)
    have e2 : ((((m : Int) + (0 : Nat) * 1 : Int)) : ℚ) / (((2 : Nat) : ℚ) - 1) = ((m : Int) : ℚ) := by
      push_cast; norm_num
    rw [e2, e]
    simp
  have hr : computeDrifts R24 hz 2 { low := m, high := m + 1, step := 1 } =
      .ok [⟨0, .fin m, hz (.fin m), m, max 1 m⟩] := by
    unfold computeDrifts
    rw [if_neg (by simp)]
    dsimp only
    have e : ((m : Int) + 1 - m).tdiv 1 = 1 := by rw [Int.tdiv_one]; omega
    rw [e, if_neg (by omega)]
    simp only [show (1 : Int).toNat = 1 from rfl, mkRates, Outcome.bind_ok, mkRate, hs]
    have hb : desmearBins true (.fin m) = .ok (max 1 (m : Int)) := by
      simp only [desmearBins, if_true]
      have ha : |((m : Nat) : ℚ)| = ((m : Int) : ℚ) := by
        rw [abs_of_nonneg (by positivity)]; push_cast; rfl
      rw [ha, roundAway_eq (x := ((m : Int) : ℚ)) (n := m) (by simp)]
      unfold toInt32
      rw [if_pos]
      rcases max_cases 1 (m : Int) with h | h <;> omega
    rw [hb]
    simp [Outcome.bind_ok]
  unfold driftSearch integrateDrifts
  rw [hT, hr]
  simp only [Outcome.bind_ok]
  rw [integrate_one_congr (ops' := steadyOps m)]
  · cases integrateCpu (steadyOps m) inp
      [(⟨0, .fin m, hz (.fin m), m, max 1 m⟩ : Rate Fl)] <;> rfl
  · simp [flOps, steadyOps]
  · intro t ht
    have ht' : t < 2 := by omega
    simp only [flOps, steadyOps]
    have e := R53.int ((m : Int) * t) (by
      rw [abs_of_nonneg (by positivity)]
      have : (m : Int) * t ≤ 100 * 1 := by
        refine mul_le_mul (by omega) (by omega) (by omega) (by omega)
      norm_num; omega)
    push_cast at e
    rw [e, roundAway_eq (x := (m : ℚ) * t) (n := (m : Int) * t) (by simp)]
    unfold toInt32
    rw [if_pos]
    have h1 : (m : Int) * t ≤ 100 * 1 := by
      refine mul_le_mul (by omega) (by omega) (by omega) (by omega)
    have h2 : 0 ≤ (m : Int) * t := by positivity
    omega

/-- Two time steps, eight channels, one tone that starts in channel 2 and moves up by 2. -/
def fastTone : Nat → Int → Int := fun t c => if c = 2 + 2 * t then 16 else 0

/-- **C87 fails with desmearing.** With the default option a drift of two channels per time step
averages two neighbouring channels, so the cell that starts one channel too low holds the same
power as the tone's; the search meets it first, and reports the tone one channel below its start,
at less than its SNR of 16. -/
theorem C87_desmeared_tone_displaced (R24 : Rounding 24) (R53 : Rounding 53) (hz : Fl → Fl)
    (junk : Coord → Int) (cc : Channel Fl) :
    ToneLine 2 2 2 (fun t => 2 + 2 * t) ∧ Dominates 8 2 fastTone (fun t => 2 + 2 * t) ∧
    ∃ h : Hit Int Fl,
      driftSearch R24 R53 hz (unitArith Int) 0 junk cc (denseInput 2 8 fastTone (fun _ _ => 0))
        { low := 2, high := 3, step := 1 } 1 0 ⟨.connectedComponents, 5, 2⟩ = .ok [h] ∧
      h.startFreqIndex = 1 ∧ h.snr = 8 := by
  refine ⟨⟨?_⟩, ⟨?_, ?_⟩, ?_⟩
  · intro t _
    push_cast
    rw [show (2 + 2 * (t : ℚ) - (2 + 2 * t / ((2 : ℚ) - 1))) = 0 by ring]
    norm_num
  · intro t _ c _ _ hne
    simp [fastTone, hne]
  · intro t _
    simp [fastTone]
  · have h := driftSearch_one R24 R53 hz (unitArith Int) 0 junk cc
      (denseInput 2 8 fastTone (fun _ _ => 0)) rfl 2 (by norm_num) 1 0 ⟨.connectedComponents, 5, 2⟩
    exact ⟨_, h.trans rfl, rfl, rfl⟩

/-- A steady tone in channel 2 with weaker channels on its upper side. -/
def sidedTone : Nat → Int → Int := fun _ c => if c = 2 then 20 else if c = 3 ∨ c = 4 then 8 else 0

/-- **C87 fails for the start frequency.** The start frequency is that of the middle of the
cluster, not of the peak: a tone in channel 2 with power on one side of it is reported with start
channel 2 and the frequency of channel 3. (`ar` is arbitrary except that the noise comes out as 1.) -/
theorem C87_frequency_displaced (R24 : Rounding 24) (R53 : Rounding 53) (hz : Fl → Fl)
    (ar : Arith Int Fl) (junk : Coord → Int) (cc : Channel Fl) :
    Dominates 8 2 sidedTone (fun _ => 2) ∧
    ∃ h : Hit Int Fl,
      driftSearch R24 R53 hz { ar with toF := fun _ => 1 } 0 junk cc (denseInput 2 8 sidedTone (fun _ _ => 0))
        { low := 0, high := 1, step := 1 } 1 0 ⟨.connectedComponents, 10, 2⟩ = .ok [h] ∧
      h.startFreqIndex = 2 ∧
      h.startFreqMHz = ar.add cc.fch1 (ar.mul cc.foff (ar.ofInt 3)) := by
  refine ⟨⟨?_, ?_⟩, ?_⟩
  · intro t _ c _ _ hne
    simp only [sidedTone]
    rw [if_neg hne, if_pos trivial]
    split <;> norm_num
  · intro t _
    simp [sidedTone]
  · have h := driftSearch_one R24 R53 hz { ar with toF := fun _ => 1 } 0 junk cc
      (denseInput 2 8 sidedTone (fun _ _ => 0)) rfl 0 (by norm_num) 1 0 ⟨.connectedComponents, 10, 2⟩
    exact ⟨_, h.trans rfl, rfl, rfl⟩

end Bliss.Hit
