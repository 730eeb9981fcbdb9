import Verif.Hit.Single

/-!
# When all lines above the threshold belong to the tone (C144)

Two cases in which `OneGroup` holds: a tone so weak that every other line is below the threshold, and
a tone so strong that a line through any one of its samples is above half of it.
-/

namespace Bliss.Hit

open Bliss.Drift Bliss.Comp Bliss.Float

/-- The level at the threshold: the noise floor and the threshold times the noise, less a 4096th of
it. -/
def fullLevel (floor thr noise : ℚ) : ℚ := floor + thr * noise * (1 - 1 / 4096)

section
variable {R : Rounding 24} (ar : Arith (F32 R) Fl) {grid : Nat → Int → F32 R} {N T : Nat}
  {ro : RateOptions} {off : Nat → Nat → Int}

/-- The exact sum along a line. -/
def lineSum (grid : Nat → Int → F32 R) (N T : Nat) (ro : RateOptions) (off : Nat → Nat → Int)
    (x : Coord) : ℚ :=
  ∑ t ∈ Finset.range T, contribution N (decide (0 ≤ ro.low + x.1 * ro.step))
    (ro.low + x.1 * ro.step) (off x.1.toNat) (fun t c => (grid t c).val) x.2 t

variable (hoff : Straight T ro off) (hT : 2 ≤ T) (hT' : T ≤ 512)
include hoff hT hT'

/-- The computed sum of samples that are not negative. -/
theorem lineSum_err (hpos : ∀ t < T, ∀ c : Int, 0 ≤ c → c < N → 0 ≤ (grid t c).val) {x : Coord}
    (hx : Cell N ro x) :
    |(pathSum grid 1 (path N T (decide (0 ≤ ro.low + x.1 * ro.step)) (ro.low + x.1 * ro.step) 1
        (off x.1.toNat) x.2)).val - lineSum grid N T ro off x| ≤
      3 * T * 2 ^ (-23 : ℤ) * lineSum grid N T ro off x := by
  obtain ⟨i, c⟩ := x
  obtain ⟨x1, x2, x3, x4⟩ := hx
  dsimp only at x1 x2 x3 x4 ⊢
  obtain ⟨i, rfl⟩ := Int.eq_ofNat_of_zero_le x1
  have k4 := hoff i x2
  unfold lineSum
  dsimp only
  rw [Int.toNat_natCast, ← path_sum]
  refine pathSum_err grid _ (path_length ..) hT hT' fun y hy => ?_
  unfold path at hy
  simp only [List.mem_flatMap, List.mem_range, List.mem_filterMap, Option.map_eq_some_iff] at hy
  obtain ⟨t, ht, k, hk, z, hz, rfl⟩ := hy
  obtain rfl : k = 0 := by omega
  obtain ⟨y1, y2, y3⟩ := pathChannel_inside k4 ht x3 x4 hz
  exact hpos t ht z y2 y3

theorem lineSum_nonneg (hpos : ∀ t < T, ∀ c : Int, 0 ≤ c → c < N → 0 ≤ (grid t c).val) {x : Coord}
    (hx : Cell N ro x) : 0 ≤ lineSum grid N T ro off x := by
  obtain ⟨i, c⟩ := x
  obtain ⟨x1, x2, x3, x4⟩ := hx
  dsimp only at x1 x2 x3 x4
  obtain ⟨i, rfl⟩ := Int.eq_ofNat_of_zero_le x1
  refine Finset.sum_nonneg fun t ht => ?_
  unfold contribution
  dsimp only
  rw [Int.toNat_natCast]
  split
  · rename_i z hz
    obtain ⟨_, y2, y3⟩ := pathChannel_inside (hoff i x2) (Finset.mem_range.1 ht) x3 x4 hz
    exact hpos t (Finset.mem_range.1 ht) z y2 y3
  · exact le_rfl

/-- The computed SNR of a line, in units of its noise, against its exact sum. -/
theorem lineSnr_near (hpos : ∀ t < T, ∀ c : Int, 0 ≤ c → c < N → 0 ≤ (grid t c).val) {p : ℚ}
    (hp : 0 < p) {noisePower floor : F32 R} (hfloor : 0 ≤ floor.val ∧ floor.val ≤ p / 2)
    (hn : 0 < (driftNoise ar noisePower T).val) {x : Coord} (hx : Cell N ro x)
    (hX : lineSum grid N T ro off x ≤ 2 * p * T) :
    |(lineSnr ar grid N T ro off noisePower floor x).val * (driftNoise ar noisePower T).val -
      (lineSum grid N T ro off x / T - floor.val)| ≤ p / 2048 := by
  have hX0 := lineSum_nonneg hoff hT hT' hpos hx
  have he := lineSum_err hoff hT hT' hpos hx
  have hT2 : (2 : ℚ) ≤ T := by exact_mod_cast hT
  have hT5 : (T : ℚ) ≤ 512 := by exact_mod_cast hT'
  have hTq : (0 : ℚ) < T := by linarith
  have hRT : R.r (((T : Nat) : Int) : ℚ) = T := by
    have := R.int (T : ℤ) (by rw [Nat.abs_cast]; norm_num; omega)
    rw [this]; simp
  have hval : (lineSnr ar grid N T ro off noisePower floor x).val =
      rSnr R (pathSum grid 1 (path N T (decide (0 ≤ ro.low + x.1 * ro.step))
        (ro.low + x.1 * ro.step) 1 (off x.1.toNat) x.2)).val T floor.val
        (driftNoise ar noisePower T).val := by
    unfold lineSnr
    rw [F32.div_val, F32.sub_val, F32.div_val, F32.int_val, hRT]
    rfl
  rw [hval]
  generalize (pathSum grid 1 (path N T (decide (0 ≤ ro.low + x.1 * ro.step))
        (ro.low + x.1 * ro.step) 1 (off x.1.toNat) x.2)).val = A at *
  generalize lineSum grid N T ro off x = X at *
  generalize (driftNoise ar noisePower T).val = n at *
  have hfin := rSnr_err (R := R) (A := A) (M := X / T) (p := p) (f := floor.val) (n := n)
    (T := T) (by omega) hp hn
  rw [show (2 : ℚ) ^ (-23 : ℤ) = 1 / 8388608 by norm_num] at he hfin
  have hE : 3 * (T : ℚ) * (1 / 8388608) * X ≤ 1 / 2 * X := by
    have := mul_le_mul_of_nonneg_right hT5 hX0
    linarith
  have hE' : 3 * (T : ℚ) * (1 / 8388608) * X ≤ 6 * T * (1 / 8388608) * p * T := by
    have := mul_le_mul_of_nonneg_left hX (show 0 ≤ 3 * (T : ℚ) * (1 / 8388608) by positivity)
    linarith
  have h4 := hfin ⟨by rw [abs_le] at he; linarith [he.1], by rw [abs_le] at he; linarith [he.2]⟩
    ⟨hfloor.1, by linarith [hfloor.2]⟩
  have h5 : |A / T - X / T| ≤ 6 * T * (1 / 8388608) * p := by
    rw [← sub_div, abs_div, abs_of_pos hTq, div_le_iff₀ hTq]
    exact he.trans hE'
  have h6 := mul_le_mul_of_nonneg_right hT5 hp.le
  linarith

/-- Every line other than the tone's has a smaller sum, by half of the tone's power. -/
theorem other_line {k d : Int} {j : Nat} (hj : (j : Int) < (ro.high - ro.low).tdiv ro.step)
    (hd : d = ro.low + j * ro.step) (hstep : ro.step ≠ 0) {ch : Nat → Int} (hline : ToneLine T k d ch)
    {p : ℚ} (hp : 0 < p) (hdom : Prominent N T (fun t c => (grid t c).val) ch p) {x : Coord}
    (hx : Cell N ro x) :
    lineSum grid N T ro off x ≤ ∑ t ∈ Finset.range T, (grid t (ch t)).val ∧
    (x ≠ ((j : Int), k) →
      lineSum grid N T ro off x ≤ (∑ t ∈ Finset.range T, (grid t (ch t)).val) - p / 2) := by
  obtain ⟨i, c⟩ := x
  obtain ⟨x1, x2, x3, x4⟩ := hx
  dsimp only at x1 x2 x3 x4
  obtain ⟨i, rfl⟩ := Int.eq_ofNat_of_zero_le x1
  have k4 := hoff i x2
  have g4 := hoff j hj
  rw [← hd] at g4
  have hch := tone_offsets hline g4
  have hcon : ∀ t < T, contribution N (decide (0 ≤ ro.low + (i : Int) * ro.step))
        (ro.low + (i : Int) * ro.step) (off i) (fun t c => (grid t c).val) c t ≤ (grid t (ch t)).val ∧
      (c + off i t ≠ ch t → contribution N (decide (0 ≤ ro.low + (i : Int) * ro.step))
        (ro.low + (i : Int) * ro.step) (off i) (fun t c => (grid t c).val) c t ≤
          (grid t (ch t)).val - p / 2) := by
    intro t ht
    have ht1 : p ≤ (grid t (ch t)).val := (hdom.tone t ht).1
    unfold contribution
    cases hq : pathChannel N (decide (0 ≤ ro.low + (i : Int) * ro.step))
      (ro.low + (i : Int) * ro.step) (off i t) 0 c with
    | none => exact ⟨by dsimp only; linarith, fun _ => by dsimp only; linarith⟩
    | some y =>
      obtain ⟨y1, y2, y3⟩ := pathChannel_inside k4 ht x3 x4 hq
      dsimp only
      refine ⟨?_, fun hne => ?_⟩
      · by_cases hy : y = ch t
        · rw [hy]
        · have := (hdom.rest t ht y y2 y3 hy).2
          linarith
      · have := (hdom.rest t ht y y2 y3 (by rw [y1]; exact hne)).2
        linarith
  refine ⟨Finset.sum_le_sum fun t ht => ?_, fun hne => ?_⟩
  · exact (hcon t (Finset.mem_range.1 ht)).1
  · have hex : ∃ t < T, c + off i t ≠ ch t := by
      by_contra hall
      push Not at hall
      have s0 := hall 0 (by omega)
      have s1 := hall (T - 1) (by omega)
      rw [hch 0 (by omega), k4.start, g4.start] at s0
      rw [hch (T - 1) (by omega), k4.stop, g4.stop, hd] at s1
      have hc' : c = k := by omega
      have hmul : ((i : Int) - j) * ro.step = 0 := by
        rw [sub_mul]; omega
      rcases mul_eq_zero.1 hmul with h | h
      · exact hne (by rw [hc', show (i : Int) = j by omega])
      · exact hstep h
    obtain ⟨t₀, ht₀, hne₀⟩ := hex
    have hmem₀ : t₀ ∈ Finset.range T := Finset.mem_range.2 ht₀
    unfold lineSum
    dsimp only
    rw [Int.toNat_natCast, ← Finset.add_sum_erase _ _ hmem₀, ← Finset.add_sum_erase (Finset.range T)
      (fun t => (grid t (ch t)).val) hmem₀]
    have q1 := (hcon t₀ ht₀).2 hne₀
    have q2 : ∑ t ∈ (Finset.range T).erase t₀, contribution N
        (decide (0 ≤ ro.low + (i : Int) * ro.step)) (ro.low + (i : Int) * ro.step) (off i)
        (fun t c => (grid t c).val) c t ≤
        ∑ t ∈ (Finset.range T).erase t₀, (grid t (ch t)).val :=
      Finset.sum_le_sum fun t ht => (hcon t (Finset.mem_range.1 (Finset.mem_of_mem_erase ht))).1
    linarith

/-- A line whose mean is below the threshold is not above it. -/
theorem low_line (hpos : ∀ t < T, ∀ c : Int, 0 ≤ c → c < N → 0 ≤ (grid t c).val)
    {noisePower floor : F32 R} (hn : 0 < (driftNoise ar noisePower T).val) {x : Coord}
    (hx : Cell N ro x) {thr : ℚ} (hthr : 0 ≤ thr)
    (hlow : lineSum grid N T ro off x / T * (1 + 1 / 4096) ≤
      fullLevel floor.val thr (driftNoise ar noisePower T).val) :
    (lineSnr ar grid N T ro off noisePower floor x).val ≤ thr := by
  have hX0 := lineSum_nonneg hoff hT hT' hpos hx
  have he := lineSum_err hoff hT hT' hpos hx
  have hT2 : (2 : ℚ) ≤ T := by exact_mod_cast hT
  have hT5 : (T : ℚ) ≤ 512 := by exact_mod_cast hT'
  have hTq : (0 : ℚ) < T := by linarith
  have hRT : R.r (((T : Nat) : Int) : ℚ) = T := by
    have := R.int (T : ℤ) (by rw [Nat.abs_cast]; norm_num; omega)
    rw [this]; simp
  unfold fullLevel at hlow
  unfold lineSnr
  rw [F32.div_val, F32.sub_val, F32.div_val, F32.int_val, hRT]
  generalize (pathSum grid 1 (path N T (decide (0 ≤ ro.low + x.1 * ro.step))
        (ro.low + x.1 * ro.step) 1 (off x.1.toNat) x.2)).val = A at *
  generalize lineSum grid N T ro off x = X at *
  generalize (driftNoise ar noisePower T).val = n at *
  have u1 : (2 : ℚ) ^ (-23 : ℤ) = 1 / 8388608 := by norm_num
  rw [u1] at he
  have hXT : 0 ≤ X / T := div_nonneg hX0 hTq.le
  have hA : A / T ≤ X / T * (1 + 1536 / 8388608) := by
    rw [div_le_iff₀ hTq]
    have h1 := (abs_le.1 he).2
    have k1 : 3 * (T : ℚ) * (1 / 8388608) * X ≤ 3 * 512 * (1 / 8388608) * X :=
      mul_le_mul_of_nonneg_right (by linarith) hX0
    have k2 : X / T * (1 + 1536 / 8388608) * T = X * (1 + 1536 / 8388608) := by field_simp
    rw [k2]
    linarith
  have hH : 0 ≤ thr * n := mul_nonneg hthr hn.le
  have hm : R.r (A / T) - floor.val ≤ thr * n * (1 - 1 / 4096) := by
    have h1 := R.mono _ _ hA
    have h2 := relErr24 R (X / T * (1 + 1536 / 8388608))
    rw [u1, abs_of_nonneg (a := X / T * (1 + 1536 / 8388608)) (mul_nonneg hXT (by norm_num)),
      abs_le] at h2
    linarith [h2.2]
  have hm2 : R.r (R.r (A / T) - floor.val) ≤ thr * n * (1 - 1 / 8192) := by
    refine (R.mono _ _ hm).trans ?_
    have k := relErr24 R (thr * n * (1 - 1 / 4096))
    rw [u1, abs_of_nonneg (a := thr * n * (1 - 1 / 4096)) (mul_nonneg hH (by norm_num)), abs_le] at k
    linarith [k.2]
  have hm3 : R.r (R.r (A / T) - floor.val) / n ≤ thr * (1 - 1 / 8192) := by
    rw [div_le_iff₀ hn]
    linarith
  refine (R.mono _ _ hm3).trans ?_
  have k := relErr24 R (thr * (1 - 1 / 8192))
  rw [u1, abs_of_nonneg (a := thr * (1 - 1 / 8192)) (mul_nonneg hthr (by norm_num)), abs_le] at k
  linarith [k.2]

/-- A line that misses the tone is not above the threshold if no sample but those of the tone is. -/
theorem missing_line (hpos : ∀ t < T, ∀ c : Int, 0 ≤ c → c < N → 0 ≤ (grid t c).val)
    {ch : Nat → Int} {noisePower floor : F32 R} {thr : ℚ} (hthr : 0 ≤ thr)
    (hrest : ∀ t < T, ∀ c : Int, 0 ≤ c → c < N → c ≠ ch t → (grid t c).val * (1 + 1 / 4096) ≤
      fullLevel floor.val thr (driftNoise ar noisePower T).val) (hfloor : 0 ≤ floor.val)
    (hn : 0 < (driftNoise ar noisePower T).val) {x : Coord} (hx : Cell N ro x)
    (hmiss : ∀ t < T, x.2 + off x.1.toNat t ≠ ch t) :
    (lineSnr ar grid N T ro off noisePower floor x).val ≤ thr := by
  refine low_line ar hoff hT hT' hpos hn hx hthr ?_
  have hl0 : 0 ≤ fullLevel floor.val thr (driftNoise ar noisePower T).val :=
    add_nonneg hfloor (mul_nonneg (mul_nonneg hthr hn.le) (by norm_num))
  generalize fullLevel floor.val thr (driftNoise ar noisePower T).val = level at *
  obtain ⟨i, c⟩ := x
  obtain ⟨x1, x2, x3, x4⟩ := hx
  dsimp only at x1 x2 x3 x4 hmiss
  obtain ⟨i, rfl⟩ := Int.eq_ofNat_of_zero_le x1
  unfold lineSum
  refine mean_le (by omega) (b := level / (1 + 1 / 4096)) (fun t ht => ?_)
    (le_of_eq (by rw [div_mul_cancel₀]; norm_num))
  unfold contribution
  dsimp only
  rw [Int.toNat_natCast] at hmiss ⊢
  split
  · rename_i z hz
    obtain ⟨y1, y2, y3⟩ := pathChannel_inside (hoff i x2) ht x3 x4 hz
    rw [le_div_iff₀ (by norm_num)]
    exact hrest t ht z y2 y3 (by rw [y1]; exact hmiss t ht)
  · exact div_nonneg hl0 (by norm_num)

end

section
variable {R : Rounding 24} (ar : Arith (F32 R) Fl) {grid : Nat → Int → F32 R} {N T : Nat}
  {ro : RateOptions}

theorem prominent_pos {ch : Nat → Int} {p : ℚ} (hp : 0 < p)
    (hdom : Prominent N T (fun t c => (grid t c).val) ch p) :
    ∀ t < T, ∀ c : Int, 0 ≤ c → c < N → 0 ≤ (grid t c).val := by
  intro t ht c h0 hc
  by_cases he : c = ch t
  · rw [he]; exact hp.le.trans (hdom.tone t ht).1
  · exact (hdom.rest t ht c h0 hc he).1

theorem prominent_sum {ch : Nat → Int} {p : ℚ}
    (hdom : Prominent N T (fun t c => (grid t c).val) ch p) :
    ∑ t ∈ Finset.range T, (grid t (ch t)).val ≤ 2 * p * T := by
  have : ∑ t ∈ Finset.range T, (grid t (ch t)).val ≤ ∑ _t ∈ Finset.range T, 2 * p :=
    Finset.sum_le_sum fun t ht => (hdom.tone t (Finset.mem_range.1 ht)).2
  rw [Finset.sum_const, Finset.card_range, nsmul_eq_mul] at this
  linarith

/-- **C144, a weak tone.** If the tone without one of its samples would be below the threshold, no other
line is above it. -/
theorem C144_weak_tone (hT : 2 ≤ T) (hT' : T ≤ 512) {k d : Int} {j : Nat}
    (hj : (j : Int) < (ro.high - ro.low).tdiv ro.step) (hd : d = ro.low + j * ro.step)
    (hstep : ro.step ≠ 0) {ch : Nat → Int} (hline : ToneLine T k d ch) {p : ℚ} (hp : 0 < p)
    (hdom : Prominent N T (fun t c => (grid t c).val) ch p) {noisePower floor : F32 R}
    (hfloor : 0 ≤ floor.val ∧ floor.val ≤ p / 2) (hn : 0 < (driftNoise ar noisePower T).val)
    (o : Options (F32 R))
    (hweak : ((∑ t ∈ Finset.range T, (grid t (ch t)).val) - p / 2) / T - floor.val + p / 2048 ≤
      o.thr.val * (driftNoise ar noisePower T).val) :
    OneGroup ar grid N T ro noisePower floor o (j, k) := by
  intro off hoff x hx hab
  by_cases hxe : x = ((j : Int), k)
  · rw [hxe]
  · exfalso
    have hpos := prominent_pos hp hdom
    obtain ⟨l1, l2⟩ := other_line hoff hT hT' hj hd hstep hline hp hdom hx
    have h1 := lineSnr_near ar hoff hT hT' hpos hp hfloor hn hx (l1.trans (prominent_sum hdom))
    have h2 := (abs_le.1 h1).2
    have hTq : (0 : ℚ) < T := by
      have : 0 < T := by omega
      exact_mod_cast this
    have h3 : lineSum grid N T ro off x / T ≤
        ((∑ t ∈ Finset.range T, (grid t (ch t)).val) - p / 2) / T :=
      div_le_div_of_nonneg_right (l2 hxe) hTq.le
    rw [F32.lt_val] at hab
    have h4 := mul_lt_mul_of_pos_right hab hn
    linarith

/-- **C144, a strong tone.** If no other sample is above the threshold, one sample of the tone is enough for a line to be above half the
threshold, the tone is not near the edges of the coarse channel, and hits closer than the distance of
neighbouring drifts are merged, then all lines above the threshold belong to the tone. -/
theorem C144_strong_tone (hT : 2 ≤ T) (hT' : T ≤ 512) {k d : Int} {j : Nat}
    (hj : (j : Int) < (ro.high - ro.low).tdiv ro.step) (hd : d = ro.low + j * ro.step)
    {ch : Nat → Int} (hline : ToneLine T k d ch) {p : ℚ} (hp : 0 < p)
    (hdom : Prominent N T (fun t c => (grid t c).val) ch p) {noisePower floor : F32 R}
    (hstep : ro.step ≠ 0) (hfloor : 0 ≤ floor.val ∧ floor.val ≤ p / 2)
    (hn : 0 < (driftNoise ar noisePower T).val) (o : Options (F32 R)) (hthr : 0 ≤ o.thr.val)
    (hrest : ∀ t < T, ∀ c : Int, 0 ≤ c → c < N → c ≠ ch t → (grid t c).val * (1 + 1 / 4096) ≤
      fullLevel floor.val o.thr.val (driftNoise ar noisePower T).val)
    {B : Int} (hB : B ≤ 2 ^ 20)
    (hdrift : ∀ i : Nat, (i : Int) < (ro.high - ro.low).tdiv ro.step → |ro.low + i * ro.step| ≤ B)
    (hband : ∀ t < T, 2 * B ≤ ch t ∧ ch t + B < N) (hdist : |ro.step| + 2 < o.dist)
    (hstrong : o.thr.val * (driftNoise ar noisePower T).val * (1 + 1 / 2048) <
      2 * (p / T - floor.val - p / 2048)) :
    OneGroup ar grid N T ro noisePower floor o (j, k) := by
  intro off hoff x hx hab
  have hpos := prominent_pos hp hdom
  have hTq : (0 : ℚ) < T := by
    have : 0 < T := by omega
    exact_mod_cast this
  have hT2 : (2 : ℚ) ≤ T := by exact_mod_cast hT
  have hshare : ∃ t < T, x.2 + off x.1.toNat t = ch t := by
    by_contra hno
    push Not at hno
    have := missing_line ar hoff hT hT' hpos hthr hrest hfloor.1 hn hx hno
    rw [F32.lt_val] at hab
    linarith
  obtain ⟨t, ht, hsh⟩ := hshare
  have hb := hband t ht
  -- lines through that sample
  have hinB : ∀ i : Nat, (i : Int) < (ro.high - ro.low).tdiv ro.step → |off i t| ≤ B := by
    intro i hi
    have h1 := (hoff i hi).inside t ht
    have h2 := abs_le.1 (hdrift i hi)
    rw [abs_le]
    constructor
    · exact (le_min (by have := abs_nonneg (ro.low + i * ro.step); have := hdrift i hi; omega)
        h2.1).trans h1.1
    · exact h1.2.trans (max_le (by have := abs_nonneg (ro.low + i * ro.step); have := hdrift i hi; omega)
        h2.2)
  have hcell : ∀ i : Nat, (i : Int) < (ro.high - ro.low).tdiv ro.step →
      Cell N ro ((i : Int), ch t - off i t) := by
    intro i hi
    have := abs_le.1 (hinB i hi)
    exact ⟨by simp, hi, by dsimp only; omega, by dsimp only; omega⟩
  have habove : ∀ i : Nat, (i : Int) < (ro.high - ro.low).tdiv ro.step →
      o.thr / 2 < lineSnr ar grid N T ro off noisePower floor ((i : Int), ch t - off i t) := by
    intro i hi
    have hc := hcell i hi
    have hb1 := abs_le.1 (hinB i hi)
    have hb2 := abs_le.1 (hdrift i hi)
    obtain ⟨l1, -⟩ := other_line hoff hT hT' hj hd hstep hline hp hdom hc
    have h1 := lineSnr_near ar hoff hT hT' hpos hp hfloor hn hc (l1.trans (prominent_sum hdom))
    have h2 := (abs_le.1 h1).1
    have hX : p ≤ lineSum grid N T ro off ((i : Int), ch t - off i t) := by
      have hnn : ∀ s ∈ Finset.range T, 0 ≤ contribution N
          (decide (0 ≤ ro.low + (i : Int) * ro.step)) (ro.low + (i : Int) * ro.step) (off i)
          (fun t c => (grid t c).val) (ch t - off i t) s := by
        intro s hs
        unfold contribution
        split
        · rename_i z hz
          obtain ⟨_, y2, y3⟩ := pathChannel_inside (hoff i hi) (Finset.mem_range.1 hs) hc.2.2.1
            hc.2.2.2 hz
          exact hpos s (Finset.mem_range.1 hs) z y2 y3
        · exact le_rfl
      have hone := Finset.single_le_sum hnn (Finset.mem_range.2 ht)
      have hval : contribution N (decide (0 ≤ ro.low + (i : Int) * ro.step))
          (ro.low + (i : Int) * ro.step) (off i) (fun t c => (grid t c).val) (ch t - off i t) t =
          (grid t (ch t)).val := by
        unfold contribution pathChannel
        by_cases hd0 : 0 ≤ ro.low + (i : Int) * ro.step
        · simp only [hd0, decide_true, if_true]
          rw [if_pos (by omega)]
          simp
        · simp only [hd0, decide_false, Bool.false_eq_true, if_false]
          rw [if_pos (by omega)]
          simp
      rw [hval] at hone
      exact (hdom.tone t ht).1.trans hone
    have h3 : p / T ≤ lineSum grid N T ro off ((i : Int), ch t - off i t) / T :=
      div_le_div_of_nonneg_right hX hTq.le
    rw [F32.lt_val, F32.div_val]
    change R.r (o.thr.val / 2) < _
    have h4 := relErr24 R (o.thr.val / 2)
    rw [abs_of_nonneg (a := o.thr.val / 2) (by linarith),
      show (2 : ℚ) ^ (-23 : ℤ) = 1 / 8388608 by norm_num] at h4
    have h5 := (abs_le.1 h4).2
    have h6 : R.r (o.thr.val / 2) * (driftNoise ar noisePower T).val ≤
        o.thr.val / 2 * (1 + 1 / 2048) * (driftNoise ar noisePower T).val :=
      mul_le_mul_of_nonneg_right (by linarith) hn.le
    refine lt_of_mul_lt_mul_right ?_ hn.le
    linarith
  -- neighbouring drifts
  have hclose : ∀ i i' : Nat, (i : Int) < (ro.high - ro.low).tdiv ro.step →
      (i' : Int) < (ro.high - ro.low).tdiv ro.step → |(i : Int) - i'| = 1 →
      l1 ((i : Int), ch t - off i t) ((i' : Int), ch t - off i' t) < o.dist := by
    intro i i' hi hi' h1
    have a1 := (hoff i hi).close t ht
    have a2 := (hoff i' hi').close t ht
    have b1 : |((ro.low + i * ro.step : Int) : ℚ)| ≤ 2 ^ 20 := by
      have := (hdrift i hi).trans hB
      exact_mod_cast this
    have b2 : |((ro.low + i' * ro.step : Int) : ℚ)| ≤ 2 ^ 20 := by
      have := (hdrift i' hi').trans hB
      exact_mod_cast this
    have c1 : (2 : ℚ) ^ (-23 : ℤ) + 2 ^ (-51 : ℤ) ≤ 1 / 8000000 := by norm_num
    have c0 : (0 : ℚ) ≤ 2 ^ (-23 : ℤ) + 2 ^ (-51 : ℤ) := by positivity
    have d1 := mul_le_mul b1 c1 c0 (by positivity)
    have d2 := mul_le_mul b2 c1 c0 (by positivity)
    have ht1 : (t : ℚ) / ((T : ℚ) - 1) ≤ 1 := by
      rw [div_le_one (by linarith)]
      have : t + 1 ≤ T := ht
      have : (t : ℚ) + 1 ≤ T := by exact_mod_cast this
      linarith
    have ht0 : 0 ≤ (t : ℚ) / ((T : ℚ) - 1) := div_nonneg (by positivity) (by linarith)
    have e : ((ro.low + i * ro.step : Int) : ℚ) * t / ((T : ℚ) - 1) -
        ((ro.low + i' * ro.step : Int) : ℚ) * t / ((T : ℚ) - 1) =
        (((i : Int) - i' : Int) : ℚ) * ro.step * (t / ((T : ℚ) - 1)) := by
      push_cast; ring
    have e1 : |(((i : Int) - i' : Int) : ℚ)| = 1 := by
      have := congrArg (Int.cast (R := ℚ)) h1
      rw [Int.cast_abs] at this
      exact_mod_cast this
    have e2 : |((ro.low + i * ro.step : Int) : ℚ) * t / ((T : ℚ) - 1) -
        ((ro.low + i' * ro.step : Int) : ℚ) * t / ((T : ℚ) - 1)| ≤ |(ro.step : ℚ)| := by
      rw [e, abs_mul, abs_mul, e1, one_mul, abs_of_nonneg ht0]
      exact mul_le_of_le_one_right (abs_nonneg _) ht1
    have key : |((off i t - off i' t : Int) : ℚ)| < |(ro.step : ℚ)| + 2 := by
      generalize ((ro.low + i * ro.step : Int) : ℚ) * t / ((T : ℚ) - 1) = u at *
      generalize ((ro.low + i' * ro.step : Int) : ℚ) * t / ((T : ℚ) - 1) = v at *
      have : ((off i t - off i' t : Int) : ℚ) = ((off i t : ℚ) - u) - ((off i' t : ℚ) - v) + (u - v) := by
        push_cast; ring
      rw [this]
      have g1 := abs_add_le (((off i t : ℚ) - u) - ((off i' t : ℚ) - v)) (u - v)
      have g2 := abs_sub ((off i t : ℚ) - u) ((off i' t : ℚ) - v)
      have g3 : (2 : ℚ) ^ 20 * (1 / 8000000) < 1 / 4 := by norm_num
      linarith
    have key' : |off i t - off i' t| < |ro.step| + 2 := by
      rw [← Int.cast_abs, ← Int.cast_abs] at key
      exact_mod_cast key
    have h7 : |ch t - off i t - (ch t - off i' t)| = |off i t - off i' t| := by
      rw [abs_sub_comm (off i t)]
      congr 1; ring
    unfold l1
    dsimp only
    rw [h1, h7]
    linarith [Int.add_one_le_iff.2 key']
  have hchain : ∀ (n : Nat) (i : Nat), (i : Int) < (ro.high - ro.low).tdiv ro.step →
      |(i : Int) - j| = n → Relation.ReflTransGen (fun p q => Cell N ro q ∧
      o.thr / 2 < lineSnr ar grid N T ro off noisePower floor q ∧ l1 p q < o.dist)
      ((j : Int), ch t - off j t) ((i : Int), ch t - off i t) := by
    intro n
    induction n with
    | zero =>
      intro i _ h
      have : i = j := by
        rw [Nat.cast_zero, abs_eq_zero] at h; omega
      rw [this]
    | succ n ih =>
      intro i hi h
      obtain ⟨i', h1, h2, h3⟩ : ∃ i' : Nat, (i' : Int) < (ro.high - ro.low).tdiv ro.step ∧
          |(i' : Int) - j| = n ∧ |(i' : Int) - i| = 1 := by
        rcases le_total (i : Int) j with hle | hle
        · refine ⟨i + 1, ?_, ?_, ?_⟩
          · rw [abs_of_nonpos (by omega)] at h
            push_cast at h ⊢; omega
          · rw [abs_of_nonpos (by omega)] at h
            rw [abs_of_nonpos (by push_cast at h ⊢; omega)]
            push_cast at h ⊢; omega
          · push_cast
            rw [show (i : Int) + 1 - i = 1 by ring, abs_one]
        · rw [abs_of_nonneg (by omega)] at h
          refine ⟨i - 1, by push_cast at h; omega, ?_, ?_⟩
          · rw [abs_of_nonneg (by push_cast at h; omega)]
            push_cast at h; omega
          · have : ((i - 1 : Nat) : Int) - i = -1 := by push_cast at h; omega
            rw [this, abs_neg, abs_one]
      exact .tail (ih i' h1 h2) ⟨hcell i hi, habove i hi, hclose i' i h1 hi h3⟩
  obtain ⟨xi, c⟩ := x
  obtain ⟨x1, x2, x3, x4⟩ := hx
  dsimp only at x1 x2 x3 x4 hsh
  obtain ⟨i, rfl⟩ := Int.eq_ofNat_of_zero_le x1
  rw [Int.toNat_natCast] at hsh
  have hjt := tone_offsets hline (by have := hoff j hj; rw [← hd] at this; exact this) t ht
  have hres := hchain _ i x2 (Int.natCast_natAbs _).symm
  rw [show ch t - off j t = k by omega, show ch t - off i t = c by omega] at hres
  exact hres

/-- **C144, silence.** Where no sample is above the threshold, no line is. -/
theorem C144_silent_channel (hT : 2 ≤ T) (hT' : T ≤ 512) {noisePower floor : F32 R}
    (hfloor : 0 ≤ floor.val) (hn : 0 < (driftNoise ar noisePower T).val)
    (o : Options (F32 R)) (hthr : 0 ≤ o.thr.val)
    (hrest : ∀ t < T, ∀ c : Int, 0 ≤ c → c < N → 0 ≤ (grid t c).val ∧
      (grid t c).val * (1 + 1 / 4096) ≤
        fullLevel floor.val o.thr.val (driftNoise ar noisePower T).val) :
    NoLine ar grid N T ro noisePower floor o := by
  intro off hoff x hx
  have := missing_line ar hoff hT hT' (fun t ht c h0 h1 => (hrest t ht c h0 h1).1)
    (ch := fun t => x.2 + off x.1.toNat t + 1) (noisePower := noisePower) hthr
    (fun t ht c h0 h1 _ => (hrest t ht c h0 h1).2) hfloor hn hx (fun t _ => by omega)
  rw [F32.lt_val]
  linarith

end

section
variable {R : Rounding 24} (ar : Arith (F32 R) Fl) {f : H5Read.File (F32 R)} {T : Nat} {fine i : Int}
  {ro : RateOptions} {k d : Int} {j : Nat} {ch : Nat → Int} {p : ℚ} {noisePower floor : F32 R}

theorem tone_shift (hfine : 0 ≤ fine) {level : ℚ}
    (htone : HasTone32 f T (fine * i) (fine * (i + 1)) k d ch p level) :
    ToneLine T (k - fine * i) d (fun t => ch t - fine * i) ∧
    Prominent fine.toNat T (fun t c => (f.at t (fine * i + c)).val) (fun t => ch t - fine * i) p := by
  have hr : ∀ t < T, ∀ c : Int, 0 ≤ c → c < fine.toNat → c ≠ ch t - fine * i → _ :=
    fun t ht c h0 h1 hne => htone.rest t ht (fine * i + c) (by omega)
      (by rw [mul_add]; omega) (by omega)
  refine ⟨⟨fun t ht => ?_⟩, ⟨fun t ht => ?_, fun t ht c h0 h1 hne => hr t ht c h0 h1 hne⟩⟩
  · have := htone.line.near t ht
    push_cast
    rw [show (ch t : ℚ) - fine * i - ((k : ℚ) - fine * i + d * t / ((T : ℚ) - 1)) =
      ch t - (k + d * t / ((T : ℚ) - 1)) by ring]
    exact this
  · rw [show fine * i + (ch t - fine * i) = ch t by ring]
    exact htone.tone t ht

theorem tone_sum : (∑ t ∈ Finset.range T, (f.at t (fine * i + (ch t - fine * i))).val) =
    ∑ t ∈ Finset.range T, (f.at t (ch t)).val :=
  Finset.sum_congr rfl fun t _ => by rw [show fine * i + (ch t - fine * i) = ch t by ring]

/-- A tone above the threshold that would be below it without one of its samples is the one signal of
its coarse channel. -/
theorem C144_weak_tone_alone (hT : 2 ≤ T) (hT' : T ≤ 512) (hfine : 0 ≤ fine)
    (hj : (j : Int) < (ro.high - ro.low).tdiv ro.step) (hd : d = ro.low + j * ro.step)
    (hstep : ro.step ≠ 0) (hp : 0 < p)
    (o : Options (F32 R)) (htone : HasTone32 f T (fine * i) (fine * (i + 1)) k d ch p
      (halfLevel floor.val o.thr.val (driftNoise ar noisePower T).val))
    (hfloor : 0 ≤ floor.val ∧ floor.val ≤ p / 2) (hn : 0 < (driftNoise ar noisePower T).val)
    (habove : o.thr.val * (1 + 1 / 512) < ((∑ t ∈ Finset.range T, (f.at t (ch t)).val) / T -
      floor.val) / (driftNoise ar noisePower T).val)
    (hweak : ((∑ t ∈ Finset.range T, (f.at t (ch t)).val) - p / 2) / T - floor.val + p / 2048 ≤
      o.thr.val * (driftNoise ar noisePower T).val) :
    OneTone ar f T fine i ro noisePower floor o k d := by
  obtain ⟨h1, h2⟩ := tone_shift hfine htone
  exact ⟨j, ch, p, hj, hd, hp, htone, hfloor, hn, habove,
    C144_weak_tone ar hT hT' hj hd hstep h1 hp h2 hfloor hn o (by rw [tone_sum]; exact hweak)⟩

/-- A tone any one sample of which is enough for half the threshold, and that stays away from the edges
of its coarse channel, is the one signal of it. -/
theorem C144_strong_tone_alone (hT : 2 ≤ T) (hT' : T ≤ 512) (hfine : 0 ≤ fine)
    (hj : (j : Int) < (ro.high - ro.low).tdiv ro.step) (hd : d = ro.low + j * ro.step)
    (hstep : ro.step ≠ 0) (hp : 0 < p)
    (o : Options (F32 R)) (htone : HasTone32 f T (fine * i) (fine * (i + 1)) k d ch p
      (halfLevel floor.val o.thr.val (driftNoise ar noisePower T).val))
    (hfloor : 0 ≤ floor.val ∧ floor.val ≤ p / 2) (hn : 0 < (driftNoise ar noisePower T).val)
    (hthr : 0 ≤ o.thr.val)
    (hrest : ∀ t < T, ∀ c : Int, fine * i ≤ c → c < fine * (i + 1) → c ≠ ch t →
      (f.at t c).val * (1 + 1 / 4096) ≤
        fullLevel floor.val o.thr.val (driftNoise ar noisePower T).val)
    (habove : o.thr.val * (1 + 1 / 512) < ((∑ t ∈ Finset.range T, (f.at t (ch t)).val) / T -
      floor.val) / (driftNoise ar noisePower T).val)
    {B : Int} (hB : B ≤ 2 ^ 20)
    (hdrift : ∀ i : Nat, (i : Int) < (ro.high - ro.low).tdiv ro.step → |ro.low + i * ro.step| ≤ B)
    (hband : ∀ t < T, fine * i + 2 * B ≤ ch t ∧ ch t + B < fine * (i + 1))
    (hdist : |ro.step| + 2 < o.dist)
    (hstrong : o.thr.val * (driftNoise ar noisePower T).val * (1 + 1 / 2048) <
      2 * (p / T - floor.val - p / 2048)) :
    OneTone ar f T fine i ro noisePower floor o k d := by
  obtain ⟨h1, h2⟩ := tone_shift hfine htone
  refine ⟨j, ch, p, hj, hd, hp, htone, hfloor, hn, habove,
    C144_strong_tone ar hT hT' hj hd h1 hp h2 hstep hfloor hn o hthr (fun t ht c h0 h1 hne => ?_) hB
      hdrift (fun t ht => ?_) hdist hstrong⟩
  · refine hrest t ht _ (by omega) ?_ (by omega)
    rw [mul_add]; omega
  have := hband t ht
  rw [mul_add] at this
  constructor <;> omega

end

/-- The hypotheses of `C144_strong_tone` are met: a tone of power 10 over a silent background of 32
channels and 3 time steps, with the threshold at 5 and the distance of the search at 4. -/
example (R : Rounding 24) (R53 : Rounding 53) :
    OneGroup (exArith32 R R53) (fun t c => ⟨if c = 10 + (t : Int) then 10 else 0⟩) 32 3
      ⟨true, -2, 3, 1⟩ ⟨1⟩ ⟨1 / 4⟩ ⟨.connectedComponents, ⟨5⟩, 4⟩ ((4 : Nat), 10) := by
  have hr : ((3 : Int) - (-2)).tdiv 1 = 5 := rfl
  refine C144_strong_tone (exArith32 R R53) (by norm_num) (by norm_num) (d := 2) (by decide) rfl
    (ch := fun t => 10 + t) ⟨fun t _ => ?_⟩ (p := 10) (by norm_num)
    ⟨fun t _ => ?_, fun t _ c _ _ hne => ?_⟩ (by norm_num) (by norm_num)
    (by simp [driftNoise, exArith32]) _ (show (0 : ℚ) ≤ 5 by norm_num) (fun t _ c _ _ hne => ?_)
    (B := 2) (by norm_num)
    (fun i hi => ?_) (fun t ht => ?_) (by norm_num) ?_
  · push_cast
    rw [show ((10 : ℚ) + (t : ℚ) - (10 + 2 * t / ((3 : ℚ) - 1))) = 0 by ring]
    norm_num
  · simp only [if_true]; norm_num
  · simp only [if_neg hne]; norm_num
  · simp only [if_neg hne]
    show (0 : ℚ) * (1 + 1 / 4096) ≤ 1 / 4 + 5 * 1 * (1 - 1 / 4096)
    norm_num
  · have hi' : (i : Int) < 5 := by rw [← hr]; exact hi
    show |(-2 : Int) + i * 1| ≤ 2
    rw [abs_le]; omega
  · constructor <;> omega
  · show (5 : ℚ) * 1 * (1 + 1 / 2048) < _
    norm_num

end Bliss.Hit
