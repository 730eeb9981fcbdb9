import Verif.Hit.Recover
import Verif.Float.Sum

/-!
# A tone is found where it is, in float arithmetic (C87)

`C87_tone_recovered_partial` is about exact sums. Here the spectrum, the drift plane, the noise floor,
the SNR and the threshold are floats: every addition, subtraction, division and conversion from an
integer rounds to 24 significant bits, in any rounding mode.
-/

namespace Bliss.Hit

open Bliss.Comp (Coord Grid Protohit Search findThresh)
open Bliss.Drift Bliss.Float

/-- A `float` within the exponent range: the operations of `drift_integration_cpu.cpp:98-161` and
`connected_components_cpu.cpp:112-118` on floats give their exact result rounded by `R`. Simplified: no
overflow, underflow, infinities and NaN. -/
@[ext] structure F32 (R : Rounding 24) where
  val : ℚ

namespace F32
variable {R : Rounding 24}

instance : Zero (F32 R) := ⟨⟨0⟩⟩
instance : Add (F32 R) := ⟨fun a b => ⟨R.r (a.val + b.val)⟩⟩
instance : Sub (F32 R) := ⟨fun a b => ⟨R.r (a.val - b.val)⟩⟩
instance : Div (F32 R) := ⟨fun a b => ⟨R.r (a.val / b.val)⟩⟩
instance : IntCast (F32 R) := ⟨fun n => ⟨R.r n⟩⟩
instance : LT (F32 R) := ⟨fun a b => a.val < b.val⟩
instance : DecidableLT (F32 R) := fun a b => inferInstanceAs (Decidable (a.val < b.val))
instance : OfNat (F32 R) 2 := ⟨⟨2⟩⟩

theorem add_val (a b : F32 R) : (a + b).val = R.r (a.val + b.val) := rfl
theorem sub_val (a b : F32 R) : (a - b).val = R.r (a.val - b.val) := rfl
theorem div_val (a b : F32 R) : (a / b).val = R.r (a.val / b.val) := rfl
theorem zero_val : (0 : F32 R).val = 0 := rfl
theorem int_val (n : Int) : ((n : F32 R)).val = R.r n := rfl
theorem lt_val (a b : F32 R) : a < b ↔ a.val < b.val := Iff.rfl

end F32

/-! ## The strongest cell is recovered -/

section
variable {F : Type} [Zero F] [Sub F] [Div F] [LT F] [DecidableLT F] [OfNat F 2]

/-- If one cell is above the threshold and stronger than every other, one hit is that cell. -/
theorem strongest_cell (ar : Arith F Fl) (fltMin : F) (junk : Coord → Int) (cc : Channel Fl)
    (p : Plane F Fl) (noisePower floor : F) (o : Options F)
    (hm : o.method = .connectedComponents)
    (htrans : ∀ a b c : F, a < b → b < c → a < c) (hirr : ∀ a : F, ¬ a < a)
    (hr : p.grid.drifts ≤ p.rates.length)
    (hhalf : ∀ v : F, o.thr < v → o.thr / 2 < v) (hmin : ∀ v : F, o.thr < v → fltMin < v)
    {x₀ : Coord} (hx₀ : p.grid.has x₀) (habove : o.thr < (toSearch ar p noisePower floor o).snr x₀)
    (hweak : ∀ x, p.grid.has x → x ≠ x₀ → (toSearch ar p noisePower floor o).snr x <
      (toSearch ar p noisePower floor o).snr x₀) :
    ∃ cs hs c h, findThresh (toSearch ar p noisePower floor o) fltMin = .ok cs ∧
      hitSearch ar fltMin junk cc p noisePower floor o = .ok hs ∧ c ∈ cs ∧ h ∈ hs ∧
      c.indexMax = x₀ ∧ Describes ar cc p noisePower floor o.thr c h ∧
      h.snr = (toSearch ar p noisePower floor o).snr x₀ ∧
      ∀ h' ∈ hs, p.grid.has (h'.rateIndex, h'.startFreqIndex) ∧
        h'.snr = (toSearch ar p noisePower floor o).snr (h'.rateIndex, h'.startFreqIndex) := by
  obtain ⟨cs, hs, e1, e2, e3, e4⟩ := hitSearch_covers ar fltMin junk cc p noisePower floor o hm
    htrans hirr hr hhalf hmin
  obtain ⟨c, hc, hxc, h, hh, hdesc, hsnr, hlt⟩ := e4 x₀ hx₀ habove
  have hpeak : c.indexMax = x₀ := by
    by_contra hne
    have hg := hdesc.inPlane
    rw [hdesc.peak.1, hdesc.peak.2] at hg
    have := hweak c.indexMax hg hne
    rw [← hsnr] at this
    exact hlt this
  refine ⟨cs, hs, c, h, e1, e2, hc, hh, hpeak, hdesc, by rw [hsnr, hpeak], fun h' hh' => ?_⟩
  obtain ⟨j, hj, rfl⟩ := List.getElem_of_mem hh'
  have hlen := e3.length_eq
  have hd' := (List.forall₂_iff_get.1 e3).2 j (by omega) hj
  refine ⟨hd'.inPlane, ?_⟩
  obtain ⟨r, r1, _, r3⟩ := hd'.rate
  simp only [List.get_eq_getElem] at r1 r3
  rw [r3]
  unfold Search.snr
  have : (toSearch ar p noisePower floor o).noise hs[j].rateIndex = noiseOf ar noisePower p.steps r := by
    simp only [toSearch]
    rw [r1]
  rw [this]
  rfl

end

/-! ## Rounded sums along a line -/

variable {R : Rounding 24}

theorem relErr24 (R : Rounding 24) : RelErr R.r (2 ^ (-23 : ℤ)) := fun z => by
  have := R.err z
  rw [mul_comm] at this
  norm_num at this ⊢
  exact this

theorem F32.half_lt {thr : F32 R} (h0 : 0 ≤ thr.val) (v : F32 R) (hv : thr < v) : thr / 2 < v := by
  rw [F32.lt_val] at hv ⊢
  rw [F32.div_val]
  change R.r (thr.val / 2) < v.val
  have h := relErr24 R (thr.val / 2)
  rw [abs_of_nonneg (a := thr.val / 2) (by linarith), abs_le] at h
  norm_num at h
  linarith [h.2]

/-- The rounded sum along a line of samples that are not negative. -/
theorem pathSum_err (grid : Nat → Int → F32 R) (l : List (Nat × Int)) {T : Nat} (hl : l.length ≤ T)
    (hT : 2 ≤ T) (hT' : T ≤ 512) (hpos : ∀ s ∈ l, 0 ≤ (grid s.1 s.2).val) :
    |(pathSum grid 1 l).val - (l.map fun s => (grid s.1 s.2).val).sum| ≤
      3 * T * 2 ^ (-23 : ℤ) * (l.map fun s => (grid s.1 s.2).val).sum := by
  have h1 : ((1 : Int) : F32 R).val = 1 := by
    rw [F32.int_val]
    exact_mod_cast R.int 1 (by norm_num)
  have hval : ∀ (m : List (Nat × Int)) (acc : F32 R),
      (m.foldl (fun acc s => acc + grid s.1 s.2 / ((1 : Int) : F32 R)) acc).val =
        (m.map fun s => R.r (grid s.1 s.2).val).foldl (fun s x => R.r (s + x)) acc.val := by
    intro m
    induction m with
    | nil => intro acc; rfl
    | cons s m ih =>
      intro acc
      rw [List.foldl_cons, ih, List.map_cons, List.foldl_cons, F32.add_val, F32.div_val, h1, div_one]
  have hv := hval l 0
  rw [F32.zero_val] at hv
  unfold pathSum
  rw [hv]
  change |plainSum R.r (l.map fun s => R.r (grid s.1 s.2).val) - _| ≤ _
  have hR := relErr24 R
  set u : ℚ := 2 ^ (-23 : ℤ) with hu
  have hu0 : (0 : ℚ) ≤ u := by rw [hu]; positivity
  have hu1 : u ≤ 1 / 8388608 := by rw [hu]; norm_num
  clear_value u
  have hlen : ((l.map fun s => R.r (grid s.1 s.2).val).length : ℚ) = (l.length : ℚ) := by simp
  have hlT : (l.length : ℚ) ≤ T := by exact_mod_cast hl
  have hTq : (T : ℚ) ≤ 512 := by exact_mod_cast hT'
  have hT2 : (2 : ℚ) ≤ T := by exact_mod_cast hT
  have hb := plainSum_err hR hu0 (l.map fun s => R.r (grid s.1 s.2).val) (by
    rw [hlen]; nlinarith)
  rw [hlen] at hb
  -- the samples themselves
  have hsum : |(l.map fun s => R.r (grid s.1 s.2).val).sum - (l.map fun s => (grid s.1 s.2).val).sum| ≤
        u * (l.map fun s => (grid s.1 s.2).val).sum ∧
      absSum (l.map fun s => R.r (grid s.1 s.2).val) ≤
        (1 + u) * (l.map fun s => (grid s.1 s.2).val).sum ∧
      0 ≤ (l.map fun s => (grid s.1 s.2).val).sum := by
    clear hv hb hl hlT hlen
    induction l with
    | nil => simp [absSum]
    | cons s l ih =>
      obtain ⟨i1, i2, i3⟩ := ih fun x hx => hpos x (List.mem_cons_of_mem _ hx)
      have h0 := hpos s List.mem_cons_self
      have hs := hR (grid s.1 s.2).val
      rw [abs_of_nonneg h0] at hs
      have hn := R.nonneg h0
      simp only [List.map_cons, List.sum_cons, absSum] at i1 i2 i3 ⊢
      rw [abs_of_nonneg hn]
      rw [abs_le] at hs i1 ⊢
      refine ⟨⟨by linarith, by linarith⟩, by linarith, by linarith⟩
  obtain ⟨s1, s2, s3⟩ := hsum
  generalize (l.map fun s => (grid s.1 s.2).val).sum = S at *
  generalize absSum (l.map fun s => R.r (grid s.1 s.2).val) = A at *
  generalize (l.map fun s => R.r (grid s.1 s.2).val).sum = S' at *
  generalize plainSum R.r (l.map fun s => R.r (grid s.1 s.2).val) = P at *
  have hln : (0 : ℚ) ≤ l.length := by positivity
  have c1 : 2 * (l.length : ℚ) * u * A ≤ 2 * T * u * ((1 + u) * S) := by
    have g1 : 2 * (l.length : ℚ) * u * A ≤ 2 * l.length * u * ((1 + u) * S) :=
      mul_le_mul_of_nonneg_left s2 (by positivity)
    have g2 : 2 * (l.length : ℚ) * u * ((1 + u) * S) ≤ 2 * T * u * ((1 + u) * S) :=
      mul_le_mul_of_nonneg_right (mul_le_mul_of_nonneg_right (by linarith) hu0) (by positivity)
    exact g1.trans g2
  have c2 : |P - S| ≤ |P - S'| + |S' - S| := by
    have : P - S = (P - S') + (S' - S) := by ring
    rw [this]; exact abs_add_le _ _
  have c3 : 2 * T * u * ((1 + u) * S) + u * S ≤ 3 * T * u * S := by
    have hTu : (T : ℚ) * u ≤ 512 * (1 / 8388608) := mul_le_mul hTq hu1 hu0 (by norm_num)
    have : 2 * (T : ℚ) * (1 + u) + 1 ≤ 3 * T := by linarith
    have := mul_le_mul_of_nonneg_right this (mul_nonneg hu0 s3)
    nlinarith
  linarith

theorem path_length (N T : Nat) (up : Bool) (span : Int) (off : Nat → Int) (c : Int) :
    (path N T up span 1 off c).length ≤ T := by
  induction T with
  | zero => simp [path]
  | succ T ih =>
    unfold path at ih ⊢
    rw [List.range_succ (n := T), List.flatMap_append, List.length_append]
    have : ([T].flatMap fun t => (List.range 1).filterMap fun k =>
        (pathChannel N up span (off t) k c).map fun ch => (t, ch)).length ≤ 1 := by
      simp only [List.flatMap_cons, List.flatMap_nil, List.append_nil]
      exact (List.length_filterMap_le _ _).trans (by simp)
    omega

/-- The exact sum along a line. -/
theorem path_sum (N T : Nat) (up : Bool) (span : Int) (off : Nat → Int) (c : Int)
    (g : Nat → Int → ℚ) :
    ((path N T up span 1 off c).map fun s => g s.1 s.2).sum =
      ∑ t ∈ Finset.range T, contribution N up span off g c t := by
  rw [← pathSum_one]
  unfold pathSum
  have : ∀ (l : List (Nat × Int)) (a : ℚ), l.foldl (fun acc s => acc + g s.1 s.2 / ((1 : Int) : ℚ)) a =
      a + (l.map fun s => g s.1 s.2).sum := by
    intro l
    induction l with
    | nil => intro a; simp
    | cons s l ih => intro a; rw [List.foldl_cons, ih]; simp; ring
  rw [this, zero_add]

/-! ## Rounding keeps the order of two lines -/

/-- The SNR as the search computes it from a sum: divided by the number of time steps, minus the
floor, divided by the noise, each rounded. -/
def rSnr (R : Rounding 24) (sum : ℚ) (T : Nat) (floor noise : ℚ) : ℚ :=
  R.r (R.r (R.r (sum / T) - floor) / noise)

theorem r_err {x B : ℚ} (h : |x| ≤ B) : |R.r x - x| ≤ 2 ^ (-23 : ℤ) * B :=
  (relErr24 R x).trans (mul_le_mul_of_nonneg_left h (by positivity))

/-- The errors of the three last operations, against an exact mean `M`. -/
theorem rSnr_err {A M p f n : ℚ} {T : Nat} (hT : 0 < T) (hp : 0 < p) (hn : 0 < n)
    (hA : 0 ≤ A ∧ A ≤ 3 * p * T) (hf : 0 ≤ f ∧ f ≤ p) :
    |rSnr R A T f n * n - (M - f)| ≤ |A / T - M| + 15 * 2 ^ (-23 : ℤ) * p := by
  have hTq : (0 : ℚ) < T := by exact_mod_cast hT
  have hm0 : 0 ≤ A / T := div_nonneg hA.1 hTq.le
  have hm1 : A / T ≤ 3 * p := by rw [div_le_iff₀ hTq]; exact hA.2
  unfold rSnr
  generalize A / (T : ℚ) = m at *
  have hR := relErr24 R
  have u0 : (0 : ℚ) < 2 ^ (-23 : ℤ) := by positivity
  have u1 : (2 : ℚ) ^ (-23 : ℤ) ≤ 1 / 8388608 := by norm_num
  generalize (2 : ℚ) ^ (-23 : ℤ) = u at *
  have hup : u * p ≤ 1 / 8388608 * p := mul_le_mul_of_nonneg_right u1 hp.le
  have hup0 : 0 < u * p := mul_pos u0 hp
  have e1 := (hR m).trans (mul_le_mul_of_nonneg_left
    (show |m| ≤ 3 * p by rw [abs_of_nonneg hm0]; exact hm1) u0.le)
  generalize R.r m = x1 at *
  have b1 : |x1 - f| ≤ 5 * p := by
    rw [abs_le] at e1 ⊢
    constructor <;> linarith [hf.1, hf.2]
  have e2 := (hR (x1 - f)).trans (mul_le_mul_of_nonneg_left b1 u0.le)
  generalize R.r (x1 - f) = x2 at *
  have b2 : |x2| ≤ 6 * p := by
    rw [abs_le] at e2 b1 ⊢
    constructor <;> linarith
  have e3 : |R.r (x2 / n) * n - x2| ≤ u * (6 * p) := by
    have h := hR (x2 / n)
    have e : R.r (x2 / n) * n - x2 = (R.r (x2 / n) - x2 / n) * n := by field_simp
    rw [e, abs_mul, abs_of_pos hn]
    calc |R.r (x2 / n) - x2 / n| * n ≤ u * |x2 / n| * n := mul_le_mul_of_nonneg_right h hn.le
      _ = u * |x2| := by rw [abs_div, abs_of_pos hn]; field_simp
      _ ≤ u * (6 * p) := mul_le_mul_of_nonneg_left b2 u0.le
  generalize R.r (x2 / n) * n = x3 at *
  have e4 := abs_nonneg (m - M)
  have e5 := le_abs_self (m - M)
  have e6 := neg_abs_le (m - M)
  rw [abs_le] at e1 e2 e3 ⊢
  constructor <;> linarith

/-- The power of a tone in channel `ch t` at time step `t`, and of everything else in the band: the
tone varies by a factor of at most two and is at least twice as strong as any other sample. -/
structure Prominent (N T : Nat) (grid : Nat → Int → ℚ) (ch : Nat → Int) (p : ℚ) : Prop where
  tone : ∀ t < T, p ≤ grid t (ch t) ∧ grid t (ch t) ≤ 2 * p
  rest : ∀ t < T, ∀ c : Int, 0 ≤ c → c < N → c ≠ ch t → 0 ≤ grid t c ∧ grid t c ≤ p / 2

/-- The background of the tone is clear up to a level: along every line parallel to the tone the mean
of the samples in the band, and a 4096th more, is at most `level`. -/
def Clear (N T : Nat) (grid : Nat → Int → ℚ) (ch : Nat → Int) (level : ℚ) : Prop :=
  ∀ δ : Int, δ ≠ 0 → (∑ t ∈ Finset.range T,
    if 0 ≤ ch t + δ ∧ ch t + δ < N then grid t (ch t + δ) else 0) / T * (1 + 1 / 4096) ≤ level

/-- The level at half the threshold: the noise floor and half the threshold times the noise, less a
4096th of it. -/
def halfLevel (floor thr noise : ℚ) : ℚ := floor + thr / 2 * noise * (1 - 1 / 4096)

theorem mean_le {T : Nat} (hT : 0 < T) {v : Nat → ℚ} {b level : ℚ} (h : ∀ t < T, v t ≤ b)
    (hb : b * (1 + 1 / 4096) ≤ level) :
    (∑ t ∈ Finset.range T, v t) / T * (1 + 1 / 4096) ≤ level := by
  have hTq : (0 : ℚ) < T := by exact_mod_cast hT
  have h1 : ∑ t ∈ Finset.range T, v t ≤ ∑ _t ∈ Finset.range T, b :=
    Finset.sum_le_sum fun t ht => h t (Finset.mem_range.1 ht)
  rw [Finset.sum_const, Finset.card_range, nsmul_eq_mul] at h1
  have h2 : (∑ t ∈ Finset.range T, v t) / T ≤ b := by
    rw [div_le_iff₀ hTq]; linarith
  linarith

/-- The background is clear if everything but the tone is below the noise floor by `1/2048` of it. -/
theorem clear_of_background {N T : Nat} (hT : 0 < T) {grid : Nat → Int → ℚ} {ch : Nat → Int}
    {floor thr noise : ℚ} (hf : 0 ≤ floor) (ht : 0 ≤ thr) (hn : 0 ≤ noise)
    (h : ∀ t < T, ∀ c : Int, 0 ≤ c → c < N → c ≠ ch t → grid t c ≤ floor * (1 - 1 / 2048)) :
    Clear N T grid ch (halfLevel floor thr noise) := by
  intro δ hδ
  refine mean_le hT (b := floor * (1 - 1 / 2048)) (fun t htt => ?_) ?_
  · split
    · rename_i hc
      exact h t htt _ hc.1 hc.2 (by omega)
    · exact mul_nonneg hf (by norm_num)
  · have := mul_nonneg ht hn
    unfold halfLevel
    linarith

/-- **C87, recovery in float arithmetic.** Take any spectrum of floats, of 2 to 512 time steps, that
has a tone on a straight line from channel `c₀`, drifting by `d` channels, one of the searched drifts,
which is at least twice as strong as every other sample and varies by at most a factor of two. Let the
noise floor be at most half the tone, no drift be desmeared and the tone's SNR exceed the threshold by
`1/512` of it. Then, with every float operation rounded in any mode, `integrate_drifts` and
`hit_search` return, and one hit is the tone: start channel `c₀`, drift `d`, and the SNR of the tone's
mean power up to `1/1024` of it. It is the strongest hit, and the only one of that strength. If no line
parallel to the tone has a mean power above half the threshold (up to `1/4096`), the hit's start
frequency is that of channel `c₀`.

Missing: desmeared drifts, overflow and underflow. -/
theorem C87_tone_recovered_float_partial (R24 : Rounding 24) (R53 : Rounding 53) (hz : Fl → Fl)
    (ar : Arith (F32 R24) Fl) (fltMin : F32 R24) (junk : Coord → Int) (cc : Channel Fl)
    {inp : Input (F32 R24)} {grid : Nat → Int → F32 R24} {mask : Nat → Int → UInt8}
    (hin : Holds inp grid mask)
    (hview : inp.specOffset = 0 ∧ inp.rfiOffset = 0) {ro : RateOptions} (hT : 2 ≤ inp.timeSteps)
    (hT' : inp.timeSteps ≤ 512) (hstep : ro.step ≠ 0)
    (hrange : ∀ i : Nat, (i : Int) < (ro.high - ro.low).tdiv ro.step →
      |ro.low + i * ro.step| < 2 ^ 22 ∧ 2 * |ro.low + i * ro.step| ≤ inp.numChannels)
    (hplain : ro.desmear = false ∨ ∀ i : Nat, (i : Int) < (ro.high - ro.low).tdiv ro.step →
      |ro.low + i * ro.step| ≤ (inp.timeSteps : Int) - 1)
    {c₀ d : Int} {i₀ : Nat} (hi₀ : (i₀ : Int) < (ro.high - ro.low).tdiv ro.step)
    (hd : d = ro.low + i₀ * ro.step) (hstart : 0 ≤ c₀ ∧ c₀ < inp.numChannels)
    (hstop : 0 ≤ c₀ + d ∧ c₀ + d < inp.numChannels) {ch : Nat → Int}
    (hline : ToneLine inp.timeSteps c₀ d ch) {p : ℚ} (hp : 0 < p)
    (hdom : Prominent inp.numChannels inp.timeSteps (fun t c => (grid t c).val) ch p)
    (noisePower floor : F32 R24) (hfloor : 0 ≤ floor.val ∧ floor.val ≤ p / 2)
    (o : Options (F32 R24)) (hm : o.method = .connectedComponents)
    (hnoise : 0 < (driftNoise ar noisePower inp.timeSteps).val) (hmin : 0 ≤ fltMin.val)
    (hthr : fltMin.val ≤ o.thr.val) {exact : ℚ}
    (hexact : exact = ((∑ t ∈ Finset.range inp.timeSteps, (grid t (ch t)).val) / inp.timeSteps -
      floor.val) / (driftNoise ar noisePower inp.timeSteps).val)
    (habove : o.thr.val * (1 + 1 / 512) < exact) :
    ∃ (hs : List (Hit (F32 R24) Fl)) (h : Hit (F32 R24) Fl),
      driftSearch R24 R53 hz ar fltMin junk cc inp ro noisePower floor o = .ok hs ∧ h ∈ hs ∧
      h.startFreqIndex = c₀ ∧ h.rateIndex = i₀ ∧
      h.driftRate = hz (.fin (R24.r ((d : ℚ) / ((inp.timeSteps : ℚ) - 1)))) ∧
      |h.snr.val - exact| ≤ exact / 1024 ∧
      (∀ h' ∈ hs, h'.snr.val ≤ h.snr.val ∧
        (h'.snr.val = h.snr.val → h'.startFreqIndex = c₀ ∧ h'.rateIndex = i₀)) ∧
      (Clear inp.numChannels inp.timeSteps (fun t c => (grid t c).val) ch
          (halfLevel floor.val o.thr.val (driftNoise ar noisePower inp.timeSteps).val) →
        h.binwidth = 0 ∧ h.startFreqMHz = ar.add cc.fch1 (ar.mul cc.foff (ar.ofInt c₀))) := by
  obtain ⟨a, rates, off, h1, h2, h3⟩ := C07_defined_partial R24 R53 hz hin hview hT
    (by norm_num; omega) hstep (by omega) hrange
  have hthr0 : 0 ≤ o.thr.val := hmin.trans hthr
  have hR := relErr24 R24
  have hhalf := F32.half_lt (thr := o.thr) hthr0
  have hlow : ∀ v : F32 R24, o.thr < v → fltMin < v := fun v hv => lt_of_le_of_lt hthr hv
  set N := inp.numChannels with hN
  set T := inp.timeSteps with hTdef
  set n := driftNoise ar noisePower T with hn
  set s := toSearch ar (planeOf inp a rates) noisePower floor o with hsdef
  have hTq : (0 : ℚ) < T := by
    have : 0 < T := by omega
    exact_mod_cast this
  have hT2 : (2 : ℚ) ≤ T := by exact_mod_cast hT
  have hT5 : (T : ℚ) ≤ 512 := by exact_mod_cast hT'
  have hRT : R24.r (T : ℚ) = T := by
    have := R24.int (T : ℤ) (by rw [Nat.abs_cast]; norm_num; omega)
    exact_mod_cast this
  let g : Nat → Int → ℚ := fun t c => (grid t c).val
  -- the computed SNR of a cell
  have hcell : ∀ (i : Nat) (r : Rate Fl), rates[i]? = some r → ∀ c : Int, 0 ≤ c → c < N →
      (s.snr (i, c)).val = rSnr R24 (pathSum grid 1 (path N T (decide (0 ≤ r.span)) r.span 1 (off i)
        c)).val T floor.val n.val := by
    intro i r hr c h0 hc
    have hil : i < rates.length := by
      rw [List.getElem?_eq_some_iff] at hr; exact hr.1
    obtain ⟨_, g2, _, _, g5⟩ := h3 i r hr
    have hrg := hrange i (by omega)
    have hdes : r.desmear = 1 := by
      refine (rates_plain h1 hT (by norm_num; omega) hr (by omega)).2 ?_
      rcases hplain with h | h
      · exact Or.inl h
      · exact Or.inr (h i (by omega))
    have := (g5 c h0 hc).1
    rw [hdes] at this
    have hv := snr_cell (ar := ar) (noisePower := noisePower) (floor := floor) (o := o) hr this
    rw [hdes, mul_one, show (1 : Int).toNat = 1 from rfl] at hv
    rw [hsdef, hv, F32.div_val, F32.sub_val, F32.div_val, F32.int_val]
    have : R24.r (((T : Nat) : Int) : ℚ) = T := by rw [Int.cast_natCast]; exact hRT
    rw [this]
    rfl
  -- the sums
  have hgrid0 : ∀ t < T, ∀ c : Int, 0 ≤ c → c < N → 0 ≤ g t c := by
    intro t ht c h0 hc
    by_cases he : c = ch t
    · rw [he]; exact hp.le.trans (hdom.tone t ht).1
    · exact (hdom.rest t ht c h0 hc he).1
  have hmem : ∀ (i : Nat) (r : Rate Fl), rates[i]? = some r → ∀ c : Int, 0 ≤ c → c < N →
      ∀ x ∈ path N T (decide (0 ≤ r.span)) r.span 1 (off i) c,
        x.1 < T ∧ 0 ≤ x.2 ∧ x.2 < N ∧ x.2 = c + off i x.1 := by
    intro i r hr c h0 hc x hx
    obtain ⟨_, _, _, k4, _⟩ := h3 i r hr
    unfold path at hx
    simp only [List.mem_flatMap, List.mem_range, List.mem_filterMap, Option.map_eq_some_iff] at hx
    obtain ⟨t, ht, k, hk, y, hy, rfl⟩ := hx
    obtain rfl : k = 0 := by omega
    obtain ⟨y1, y2, y3⟩ := pathChannel_inside k4 ht h0 hc hy
    exact ⟨ht, y2, y3, y1⟩
  have hsumerr : ∀ (i : Nat) (r : Rate Fl), rates[i]? = some r → ∀ c : Int, 0 ≤ c → c < N →
      |(pathSum grid 1 (path N T (decide (0 ≤ r.span)) r.span 1 (off i) c)).val -
        ∑ t ∈ Finset.range T, contribution N (decide (0 ≤ r.span)) r.span (off i) g c t| ≤
      3 * T * 2 ^ (-23 : ℤ) *
        ∑ t ∈ Finset.range T, contribution N (decide (0 ≤ r.span)) r.span (off i) g c t := by
    intro i r hr c h0 hc
    rw [← path_sum]
    refine pathSum_err grid _ (path_length ..) hT hT' fun x hx => ?_
    obtain ⟨x1, x2, x3, _⟩ := hmem i r hr c h0 hc x hx
    exact hgrid0 _ x1 _ x2 x3
  -- the tone's cell
  have hi₀l : i₀ < rates.length := by omega
  have hget₀ := List.getElem?_eq_getElem hi₀l
  obtain ⟨_, g2, _, g4, _⟩ := h3 i₀ _ hget₀
  rw [← hd] at g2
  have hch : ∀ t < T, ch t = c₀ + off i₀ t := by
    rw [g2] at g4; exact tone_offsets hline g4
  have hin₀ : ∀ t < T, pathChannel N (decide (0 ≤ d)) d (off i₀ t) 0 c₀ = some (ch t) := by
    intro t ht
    have hb := g4.inside t ht
    rw [g2] at hb
    unfold pathChannel
    rw [hch t ht]
    by_cases hd0 : 0 ≤ d
    · rw [min_eq_left hd0, max_eq_right hd0] at hb
      simp only [hd0, decide_true, if_true]
      rw [if_pos (by omega)]
      simp
    · rw [min_eq_right (by omega), max_eq_left (by omega)] at hb
      simp only [hd0, decide_false, Bool.false_eq_true, if_false]
      rw [if_pos (by omega)]
      simp
  set S := ∑ t ∈ Finset.range T, g t (ch t) with hS
  have hS1 : p * T ≤ S := by
    have : ∑ _t ∈ Finset.range T, p ≤ S :=
      Finset.sum_le_sum fun t ht => (hdom.tone t (Finset.mem_range.1 ht)).1
    rw [Finset.sum_const, Finset.card_range, nsmul_eq_mul] at this
    linarith
  have hS2 : S ≤ 2 * p * T := by
    have : S ≤ ∑ _t ∈ Finset.range T, 2 * p :=
      Finset.sum_le_sum fun t ht => (hdom.tone t (Finset.mem_range.1 ht)).2
    rw [Finset.sum_const, Finset.card_range, nsmul_eq_mul] at this
    linarith
  have htone : ∑ t ∈ Finset.range T, contribution N (decide (0 ≤ d)) d (off i₀) g c₀ t = S := by
    refine Finset.sum_congr rfl fun t ht => ?_
    unfold contribution
    rw [hin₀ t (Finset.mem_range.1 ht)]
  -- each contribution is at most that of the tone, and some is smaller by half of it
  have hcon : ∀ (i : Nat) (r : Rate Fl), rates[i]? = some r → ∀ c : Int, 0 ≤ c → c < N →
      ∀ t < T, 0 ≤ contribution N (decide (0 ≤ r.span)) r.span (off i) g c t ∧
        contribution N (decide (0 ≤ r.span)) r.span (off i) g c t ≤ g t (ch t) ∧
        (c + off i t ≠ ch t →
          contribution N (decide (0 ≤ r.span)) r.span (off i) g c t ≤ g t (ch t) - p / 2) := by
    intro i r hr c h0 hc t ht
    obtain ⟨_, _, _, k4, _⟩ := h3 i r hr
    have ht1 : p ≤ g t (ch t) := (hdom.tone t ht).1
    unfold contribution
    cases hq : pathChannel N (decide (0 ≤ r.span)) r.span (off i t) 0 c with
    | none => exact ⟨le_refl _, by linarith, fun _ => by dsimp only; linarith⟩
    | some y =>
      obtain ⟨y1, y2, y3⟩ := pathChannel_inside k4 ht h0 hc hq
      dsimp only
      refine ⟨hgrid0 t ht y y2 y3, ?_, fun hne => ?_⟩
      · by_cases hy : y = ch t
        · rw [hy]
        · have := (hdom.rest t ht y y2 y3 hy).2
          change g t y ≤ p / 2 at this
          linarith
      · have := (hdom.rest t ht y y2 y3 (by rw [y1]; exact hne)).2
        change g t y ≤ p / 2 at this
        linarith
  have hless : ∀ (i : Nat) (r : Rate Fl), rates[i]? = some r → ∀ c : Int, 0 ≤ c → c < N →
      ((i : Int), c) ≠ ((i₀ : Int), c₀) →
      0 ≤ ∑ t ∈ Finset.range T, contribution N (decide (0 ≤ r.span)) r.span (off i) g c t ∧
      ∑ t ∈ Finset.range T, contribution N (decide (0 ≤ r.span)) r.span (off i) g c t ≤ S - p / 2 := by
    intro i r hr c h0 hc hne
    obtain ⟨_, k2, _, k4, _⟩ := h3 i r hr
    refine ⟨Finset.sum_nonneg fun t ht => (hcon i r hr c h0 hc t (Finset.mem_range.1 ht)).1, ?_⟩
    have hex : ∃ t < T, c + off i t ≠ ch t := by
      by_contra hall
      push Not at hall
      have s0 := hall 0 (by omega)
      have s1 := hall (T - 1) (by omega)
      rw [hch 0 (by omega), k4.start, g4.start] at s0
      rw [hch (T - 1) (by omega), k4.stop, g4.stop, g2, k2, hd] at s1
      have hc' : c = c₀ := by omega
      have hmul : ((i : Int) - i₀) * ro.step = 0 := by
        rw [sub_mul]; omega
      rcases mul_eq_zero.1 hmul with h | h
      · exact hne (by rw [hc', show (i : Int) = i₀ by omega])
      · exact hstep h
    obtain ⟨t₀, ht₀, hne₀⟩ := hex
    have hmem₀ : t₀ ∈ Finset.range T := Finset.mem_range.2 ht₀
    rw [hS, ← Finset.add_sum_erase _ _ hmem₀, ← Finset.add_sum_erase (Finset.range T)
      (fun t => g t (ch t)) hmem₀]
    have q1 := (hcon i r hr c h0 hc t₀ ht₀).2.2 hne₀
    have q2 : ∑ t ∈ (Finset.range T).erase t₀,
        contribution N (decide (0 ≤ r.span)) r.span (off i) g c t ≤
        ∑ t ∈ (Finset.range T).erase t₀, g t (ch t) :=
      Finset.sum_le_sum fun t ht =>
        (hcon i r hr c h0 hc t (Finset.mem_range.1 (Finset.mem_of_mem_erase ht))).2.1
    linarith
  -- the computed SNR of a cell with exact sum `X`
  have hcalc : ∀ (i : Nat) (r : Rate Fl), rates[i]? = some r → ∀ c : Int, 0 ≤ c → c < N →
      ∀ X, ∑ t ∈ Finset.range T, contribution N (decide (0 ≤ r.span)) r.span (off i) g c t = X →
        0 ≤ X → X ≤ 2 * p * T →
        |(s.snr (i, c)).val * n.val - (X / T - floor.val)| ≤ (6 * T + 15) * 2 ^ (-23 : ℤ) * p := by
    intro i r hr c h0 hc X hX hX0 hX1
    rw [hcell i r hr c h0 hc]
    have he := hsumerr i r hr c h0 hc
    rw [hX] at he
    generalize (pathSum grid 1 (path N T (decide (0 ≤ r.span)) r.span 1 (off i) c)).val = A at *
    have u0 : (0 : ℚ) < 2 ^ (-23 : ℤ) := by positivity
    have u1 : (2 : ℚ) ^ (-23 : ℤ) ≤ 1 / 8388608 := by norm_num
    have hfin := rSnr_err (R := R24) (A := A) (M := X / T) (p := p) (f := floor.val) (n := n.val)
      (T := T) (by omega) hp hnoise
    generalize (2 : ℚ) ^ (-23 : ℤ) = u at *
    have hTu : (T : ℚ) * u ≤ 512 * (1 / 8388608) := mul_le_mul hT5 u1 u0.le (by norm_num)
    have hE : 3 * (T : ℚ) * u * X ≤ 1 / 2 * X := by
      have := mul_le_mul_of_nonneg_right hTu hX0
      nlinarith
    have hE' : 3 * (T : ℚ) * u * X ≤ 6 * T * u * p * T := by
      have := mul_le_mul_of_nonneg_left hX1 (show 0 ≤ 3 * (T : ℚ) * u by positivity)
      linarith
    have h4 := hfin ⟨by rw [abs_le] at he; linarith [he.1], by rw [abs_le] at he; linarith [he.2]⟩
      ⟨hfloor.1, by linarith [hfloor.2]⟩
    have h5 : |A / T - X / T| ≤ 6 * T * u * p := by
      rw [← sub_div, abs_div, abs_of_pos hTq, div_le_iff₀ hTq]
      exact he.trans hE'
    linarith
  -- every other cell is weaker
  have hx₀ : (planeOf inp a rates).grid.has ((i₀ : Int), c₀) :=
    ⟨by simp, by simpa [planeOf] using hi₀l, hstart.1, hstart.2⟩
  have htonecalc := hcalc i₀ _ hget₀ c₀ hstart.1 hstart.2 S (by rw [g2]; exact htone)
    (by nlinarith) hS2
  have u1 : (2 : ℚ) ^ (-23 : ℤ) = 1 / 8388608 := by norm_num
  rw [u1] at htonecalc hcalc hsumerr
  have hTT : (T : ℚ) * T ≤ 512 * T := mul_le_mul_of_nonneg_right hT5 hTq.le
  have hweak : ∀ x : Coord, (planeOf inp a rates).grid.has x → x ≠ ((i₀ : Int), c₀) →
      s.snr x < s.snr ((i₀ : Int), c₀) := by
    rintro ⟨xi, c⟩ ⟨x1, x2, x3, x4⟩ hne
    obtain ⟨i, rfl⟩ := Int.eq_ofNat_of_zero_le x1
    change ((i : Nat) : Int) < ((rates.length : Nat) : Int) at x2
    change c < ((N : Nat) : Int) at x4
    have hil : i < rates.length := by omega
    have hget := List.getElem?_eq_getElem hil
    obtain ⟨l1, l2⟩ := hless i _ hget c x3 x4 hne
    have hX := hcalc i _ hget c x3 x4 _ rfl l1 (by linarith)
    rw [F32.lt_val]
    generalize (s.snr ((i : Int), c)).val = y at *
    generalize ∑ t ∈ Finset.range T, contribution N (decide (0 ≤ rates[i].span)) rates[i].span
      (off i) g c t = X at *
    generalize (s.snr ((i₀ : Int), c₀)).val = z at *
    have hgap : p / (2 * T) ≤ S / T - X / T := by
      rw [← sub_div, div_le_div_iff₀ (by positivity) hTq]
      nlinarith
    have hbig : 2 * ((6 * T + 15) * (1 / 8388608) * p) < p / (2 * T) := by
      rw [lt_div_iff₀ (by positivity)]
      have : 2 * ((6 * (T : ℚ) + 15) * (1 / 8388608)) * (2 * T) < 1 := by nlinarith
      nlinarith
    rw [abs_le] at hX htonecalc
    have : y * n.val < z * n.val := by linarith [hX.1, hX.2, htonecalc.1, htonecalc.2]
    exact lt_of_mul_lt_mul_right this hnoise.le
  -- the tone's SNR
  have hE : exact * n.val = S / T - floor.val := by
    rw [hexact]; field_simp
  have hEp : p / 2 ≤ exact * n.val := by
    rw [hE]
    have : p ≤ S / T := by rw [le_div_iff₀ hTq]; exact hS1
    linarith [hfloor.2]
  have hclose : |(s.snr ((i₀ : Int), c₀)).val - exact| ≤ exact / 1024 := by
    rw [← hE] at htonecalc
    generalize (s.snr ((i₀ : Int), c₀)).val = z at *
    rw [← sub_mul, abs_mul, abs_of_pos hnoise] at htonecalc
    have : |z - exact| * n.val ≤ exact / 1024 * n.val := by
      refine htonecalc.trans ?_
      nlinarith
    exact le_of_mul_le_mul_right this hnoise
  have hE0 : 0 < exact := by
    by_contra hneg
    have := mul_nonpos_of_nonpos_of_nonneg (not_lt.1 hneg) hnoise.le
    linarith
  have habove' : o.thr < s.snr ((i₀ : Int), c₀) := by
    rw [F32.lt_val]
    rw [abs_le] at hclose
    linarith [hclose.1]
  obtain ⟨cs, hs, c, h, e1, e2, hc, hh, hpeak, hdesc, hsnr, hall⟩ := strongest_cell ar fltMin junk cc
    (planeOf inp a rates) noisePower floor o hm (fun x y z => lt_trans (a := x.val)) (fun x => lt_irrefl x.val)
    (by simp [planeOf]) hhalf hlow hx₀ habove' hweak
  refine ⟨hs, h, ?_, hh, ?_, ?_, ?_, ?_, ?_, ?_⟩
  · simp only [driftSearch, h1, Outcome.bind_ok]; exact e2
  · rw [hdesc.peak.2, hpeak]
  · rw [hdesc.peak.1, hpeak]
  · obtain ⟨r, r1, r2, _⟩ := hdesc.rate
    rw [hdesc.peak.1, hpeak] at r1
    simp only [planeOf, Int.toNat_natCast, List.getElem?_map, hget₀, Option.map_some,
      Option.some.injEq] at r1
    rw [r2, ← r1]
    have := (rates_plain h1 hT (by norm_num; omega) hget₀ (by have := hrange i₀ hi₀; omega)).1
    rw [← hd] at this
    exact this
  · rw [hsnr]; exact hclose
  · intro h' hh'
    obtain ⟨q1, q2⟩ := hall h' hh'
    rw [hsnr, q2]
    by_cases he : (h'.rateIndex, h'.startFreqIndex) = ((i₀ : Int), c₀)
    · rw [he]
      simp only [Prod.mk.injEq] at he
      exact ⟨le_refl _, fun _ => ⟨he.2, he.1⟩⟩
    · have : (s.snr (h'.rateIndex, h'.startFreqIndex)).val < (s.snr ((i₀ : Int), c₀)).val :=
        hweak _ q1 he
      exact ⟨this.le, fun heq => absurd heq (ne_of_lt this)⟩
  · intro hback
    have honly : ∀ x ∈ c.locations, x.1 = i₀ → x.2 = c₀ := by
      rintro ⟨xi, xc⟩ hx hxi
      simp only at hxi ⊢
      subst hxi
      obtain ⟨cs', f1, _, f3, _⟩ := Comp.C12_clusters_disjoint_complete_partial s fltMin
      rw [e1] at f1
      obtain rfl := Outcome.ok.inj f1
      obtain ⟨⟨_, _, x3, x4⟩, hx'⟩ := f3 c hc _ hx
      change xc < ((N : Nat) : Int) at x4
      by_contra hne
      rw [F32.lt_val, hcell i₀ _ hget₀ xc x3 x4] at hx'
      have hse := hsumerr i₀ _ hget₀ xc x3 x4
      rw [g2] at hx' hse
      have hle : ∑ t ∈ Finset.range T, contribution N (decide (0 ≤ d)) d (off i₀) g xc t ≤
          ∑ t ∈ Finset.range T, if 0 ≤ ch t + (xc - c₀) ∧ ch t + (xc - c₀) < N then
            g t (ch t + (xc - c₀)) else 0 := by
        refine Finset.sum_le_sum fun t ht => ?_
        rw [Finset.mem_range] at ht
        unfold contribution
        cases hq : pathChannel N (decide (0 ≤ d)) d (off i₀ t) 0 xc with
        | none =>
          dsimp only
          split
          · rename_i hc'
            exact (hdom.rest t ht _ hc'.1 hc'.2 (by omega)).1
          · exact le_rfl
        | some y =>
          rw [g2] at g4
          obtain ⟨y1, y2, y3⟩ := pathChannel_inside g4 ht x3 x4 hq
          dsimp only
          have hy : y = ch t + (xc - c₀) := by rw [hch t ht, y1]; omega
          rw [← hy, if_pos ⟨y2, y3⟩]
      have hcl := hback (xc - c₀) (by omega)
      have h0 : 0 ≤ ∑ t ∈ Finset.range T, contribution N (decide (0 ≤ d)) d (off i₀) g xc t := by
        have := fun t ht => (hcon i₀ _ hget₀ xc x3 x4 t ht).1
        rw [g2] at this
        exact Finset.sum_nonneg fun t ht => this t (Finset.mem_range.1 ht)
      have hmean : (∑ t ∈ Finset.range T, contribution N (decide (0 ≤ d)) d (off i₀) g xc t) / T *
          (1 + 1 / 4096) ≤ halfLevel floor.val o.thr.val n.val :=
        (mul_le_mul_of_nonneg_right (div_le_div_of_nonneg_right hle hTq.le) (by norm_num)).trans hcl
      unfold halfLevel at hmean
      generalize (pathSum grid 1 (path N T (decide (0 ≤ d)) d 1 (off i₀) xc)).val = A at *
      generalize ∑ t ∈ Finset.range T, contribution N (decide (0 ≤ d)) d (off i₀) g xc t = X at *
      have hXT : 0 ≤ X / T := div_nonneg h0 hTq.le
      have hA : A / T ≤ X / T * (1 + 1536 / 8388608) := by
        rw [div_le_iff₀ hTq]
        rw [abs_le] at hse
        have k1 : 3 * (T : ℚ) * (1 / 8388608) * X ≤ 3 * 512 * (1 / 8388608) * X := by
          refine mul_le_mul_of_nonneg_right ?_ h0
          linarith
        have k2 : X / T * (1 + 1536 / 8388608) * T = X * (1 + 1536 / 8388608) := by
          field_simp
        rw [k2]
        linarith [hse.2]
      have hA0 : 0 ≤ A := by
        rw [abs_le] at hse
        have k1 : 3 * (T : ℚ) * (1 / 8388608) * X ≤ 1 * X :=
          mul_le_mul_of_nonneg_right (by linarith) h0
        linarith [hse.1]
      have hm : R24.r (A / T) - floor.val ≤ o.thr.val / 2 * n.val * (1 - 1 / 4096) := by
        have k := hR (A / T)
        rw [abs_of_nonneg (a := A / T) (div_nonneg hA0 hTq.le), u1, abs_le] at k
        linarith [k.2]
      have hH : 0 ≤ o.thr.val / 2 * n.val := mul_nonneg (by linarith) hnoise.le
      have hm2 : R24.r (R24.r (A / T) - floor.val) ≤ o.thr.val / 2 * n.val := by
        refine (R24.mono _ _ hm).trans ?_
        have k := hR (o.thr.val / 2 * n.val * (1 - 1 / 4096))
        rw [abs_of_nonneg (a := o.thr.val / 2 * n.val * (1 - 1 / 4096))
          (mul_nonneg hH (by norm_num)), u1, abs_le] at k
        linarith [k.2]
      have h6 : rSnr R24 A T floor.val n.val ≤ (s.thr / 2).val := by
        rw [F32.div_val]
        change _ ≤ R24.r (o.thr.val / 2)
        unfold rSnr
        refine R24.mono _ _ ?_
        rw [div_le_iff₀ hnoise]
        exact hm2
      exact absurd hx' (not_lt.2 h6)
    obtain ⟨lo, l1, l2, _, _, _, l6, _⟩ :=
      Comp.C15_extent_brackets_peak_partial s fltMin hhalf hlow e1 hc
    rw [hpeak] at l1 l2 l6
    have m1 := honly _ l1 rfl
    have m2 := honly _ l2 rfl
    simp only at m1 m2
    have hbw : c.binwidth = 0 := by omega
    refine ⟨by rw [hdesc.bandwidth.1, hbw], ?_⟩
    rw [hdesc.freq, l6, hbw, m1]
    simp

/-- A stand-in for the arithmetic of the search: the noise is 1. -/
def unitArith32 (R : Rounding 24) : Arith (F32 R) Fl :=
  ⟨fun _ => .nan, fun _ => ⟨1⟩, fun n => .fin n, fun _ b => b, fun _ b => b, fun a _ => a, id, id, .nan⟩

/-- The hypotheses of `C87_tone_recovered_float_partial` are met, in every rounding mode, by a tone
that drifts by 2 channels over 3 time steps in a band of 8, over a background of 1/8
and with the power falling from 11 to 9. -/
example (R : Rounding 24) :
    let ch : Nat → Int := fun t => 2 + t
    let grid : Nat → Int → F32 R := fun t c => ⟨if c = ch t then 11 - t else 1 / 8⟩
    let inp := denseInput 3 8 grid (fun _ _ => 0)
    let ro : RateOptions := { low := -2, high := 3, step := 1 }
    let floor : F32 R := ⟨1⟩
    Holds inp grid (fun _ _ => 0) ∧ (inp.specOffset = 0 ∧ inp.rfiOffset = 0) ∧
      2 ≤ inp.timeSteps ∧ inp.timeSteps ≤ 512 ∧ ro.step ≠ 0 ∧
      (∀ i : Nat, (i : Int) < (ro.high - ro.low).tdiv ro.step →
        |ro.low + i * ro.step| < 2 ^ 22 ∧ 2 * |ro.low + i * ro.step| ≤ inp.numChannels ∧
          |ro.low + i * ro.step| ≤ (inp.timeSteps : Int) - 1) ∧
      ((4 : Nat) : Int) < (ro.high - ro.low).tdiv ro.step ∧ (2 : Int) = ro.low + (4 : Nat) * ro.step ∧
      ToneLine inp.timeSteps 2 2 ch ∧
      Prominent inp.numChannels inp.timeSteps (fun t c => (grid t c).val) ch 9 ∧
      (0 ≤ floor.val ∧ floor.val ≤ 9 / 2) ∧
      0 < (driftNoise (unitArith32 R) ⟨1⟩ inp.timeSteps).val ∧
      (5 : ℚ) * (1 + 1 / 512) < ((∑ t ∈ Finset.range inp.timeSteps, (grid t (ch t)).val) /
        inp.timeSteps - floor.val) / (driftNoise (unitArith32 R) ⟨1⟩ inp.timeSteps).val ∧
      Clear inp.numChannels inp.timeSteps (fun t c => (grid t c).val) ch
        (halfLevel floor.val 5 (driftNoise (unitArith32 R) ⟨1⟩ inp.timeSteps).val) := by
  intro ch grid inp ro floor
  have hr : (ro.high - ro.low).tdiv ro.step = 5 := rfl
  have htone : ∀ t, (grid t (ch t)).val = 11 - t := fun t => by simp [grid]
  have hrest : ∀ t c, c ≠ ch t → (grid t c).val = 1 / 8 := fun t c h => by simp [grid, h]
  refine ⟨denseInput_holds _ _ _ _, ⟨rfl, rfl⟩, by simp [inp, denseInput], by simp [inp, denseInput],
    by simp [ro], ?_, by rw [hr]; norm_num, by simp [ro], ⟨?_⟩, ⟨?_, ?_⟩, by simp [floor]; norm_num,
    ?_, ?_, ?_⟩
  · intro i hi
    rw [hr] at hi
    have h1 : |ro.low + i * ro.step| ≤ 2 := by simp only [ro]; rw [abs_le]; omega
    simp only [inp, denseInput]
    push_cast
    omega
  · intro t _
    simp only [ch, inp, denseInput]
    push_cast
    rw [show (2 + (t : ℚ) - (2 + 2 * t / ((3 : ℚ) - 1))) = 0 by ring]
    norm_num
  · intro t ht
    have ht' : (t : ℚ) ≤ 2 := by
      have : t < 3 := ht
      have : t ≤ 2 := by omega
      exact_mod_cast this
    have : (0 : ℚ) ≤ t := by positivity
    rw [htone]
    constructor <;> linarith
  · intro t _ c _ _ hne
    rw [hrest t c hne]
    norm_num
  · simp [driftNoise, unitArith32]
  · simp only [htone, driftNoise, unitArith32, inp, denseInput, floor, Finset.sum_range_succ,
      Finset.sum_range_zero]
    norm_num
  · refine clear_of_background (by simp [inp, denseInput]) (by simp [floor]) (by norm_num)
      (by simp [driftNoise, unitArith32]) fun t _ c _ _ hne => ?_
    rw [hrest t c hne]
    simp only [floor]
    norm_num

end Bliss.Hit
