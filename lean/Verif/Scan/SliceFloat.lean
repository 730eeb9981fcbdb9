import Verif.Scan.Props
import Mathlib.Tactic.Positivity
import Mathlib.Tactic.NormNum
import Mathlib.Algebra.Order.Field.Basic

/-!
# Slices and frequency look-ups in double arithmetic (C29, C31)

`C29_slice_index_partial` and `C31` assume exact arithmetic on frequencies. Here the arithmetic is
that of `double`: every operation rounds to 53 bits. What does not depend on frequencies is the same
for a slice and the scan in any arithmetic, the frequencies agree to seven rounding errors, and they
need not be equal.
-/

namespace Bliss.Scan

open Bliss.Hit (Hit)

variable {F D Dev P : Type}

/-- **C29 (part), in any arithmetic.** Channel `i` of a slice and channel `start + i` of the scan are
the same in everything except the frequency of the first fine channel — data window, number,
metadata, hits, device — and also in that when the channel is already in memory. For scans without
transforms, as a transform may depend on the frequency. -/
theorem C29_slice_any_arithmetic_partial (o : DOps D) (devOk : Dev → Bool)
    (s : Scan F D Dev P) (start count i : Int) (h0 : 0 ≤ start) (hfine : 0 ≤ s.fine)
    (hsize : s.fine * s.num < 2147483648) (hcount : 0 ≤ count) (hlast : start + count ≤ s.num)
    (hi0 : 0 ≤ i) (hi : i < count) (hp : s.pipeline = []) (c : Channel F D Dev P)
    (hc : (read o devOk s (start + i)).2 = .ok c) :
    ∃ c', (read o devOk (slice o s start count) i).2 = .ok c' ∧
      { c' with fch1 := c.fch1 } = c ∧
      (c'.fch1 = c.fch1 ∨
        (c.fch1 = o.add s.fch1 (o.mul s.hdr.foff (o.ofInt (s.fine * (start + i)))) ∧
         c'.fch1 = o.add (o.add s.fch1 (o.mul (o.mul s.hdr.foff (o.ofInt s.fine)) (o.ofInt start)))
            (o.mul s.hdr.foff (o.ofInt (s.fine * i))))) := by
  rw [read_view] at hc
  rw [read_view]
  unfold view at hc ⊢
  have hn : (slice o s start count).num = count := by
    simp only [slice]
    rw [if_neg (by omega)]
  rw [hn, if_neg (by omega)]
  rw [if_neg (by omega)] at hc
  have hfit : ∀ j : Int, 0 ≤ j → j ≤ s.num → fitsInt (s.fine * j) = true := by
    intro j hj0 hj
    have h1 : 0 ≤ s.fine * j := Int.mul_nonneg hfine hj0
    have h2 : s.fine * j ≤ s.fine * s.num := Int.mul_le_mul_of_nonneg_left hj hfine
    simp only [fitsInt, Bool.and_eq_true, decide_eq_true_eq]
    omega
  have hk : i + (slice o s start count).offset = start + i + s.offset := by
    simp only [slice]; omega
  have hoff : i + (s.offset + start) = start + i + s.offset := by omega
  unfold base at hc ⊢
  rw [hk]
  have hcache : (slice o s start count).cache = s.cache := rfl
  have hpipe : (slice o s start count).pipeline = [] := hp
  have hdev : (slice o s start count).device = s.device := rfl
  rw [hcache, hpipe, hdev]
  rw [hp] at hc
  cases hcc : s.cache (start + i + s.offset) with
  | some x =>
    rw [hcc] at hc
    exact ⟨c, hc, rfl, Or.inl rfl⟩
  | none =>
    rw [hcc] at hc
    unfold fresh at hc ⊢
    simp only [slice] at hc ⊢
    simp only [hfit i hi0 (by omega), hfit (start + i) (by omega) (by omega), if_true] at hc ⊢
    cases hf : s.file with
    | none => rw [hf] at hc; cases hc
    | some shape =>
      rw [hf] at hc
      cases shape with
      | throws e => cases hc
      | ub => cases hc
      | ok l =>
        match l, hc with
        | [], hc => cases hc
        | [_], hc => cases hc
        | [_, _], hc => cases hc
        | t :: f :: w :: rest, hc =>
          simp only [Outcome.bind_ok] at hc ⊢
          unfold Channel.setDevice at hc ⊢
          by_cases hd : devOk s.device = true
          · simp only [hd, if_true, Outcome.bind_ok, applyAll, List.foldlM_nil,
              Outcome.pure_eq] at hc ⊢
            cases hc
            refine ⟨_, rfl, ?_, Or.inr ⟨rfl, rfl⟩⟩
            simp only [hoff]
          · simp only [hd] at hc
            cases hc

private theorem rne53 (x : ℚ) : |Float.rne 53 x - x| ≤ |x| * (1 / 9007199254740992) := by
  have h := Float.rne_err (p := 53) x
  have e : (2 : ℚ) ^ (-((53 : ℕ) : ℤ)) = 1 / 9007199254740992 := by norm_num
  rwa [e] at h

private theorem rneStep {x y e B : ℚ} (hxy : |x - y| ≤ e) (hB : |y| ≤ B) :
    |Float.rne 53 x - y| ≤ e + (B + e) * (1 / 9007199254740992) := by
  have h1 := rne53 x
  have h2 : |x| ≤ B + e := by
    have : |x| ≤ |x - y| + |y| := by
      have := abs_add_le (x - y) y
      simpa using this
    linarith
  have h3 : |Float.rne 53 x - y| ≤ |Float.rne 53 x - x| + |x - y| := by
    have := abs_add_le (Float.rne 53 x - x) (x - y)
    simpa using this
  have h4 : |x| * (1 / 9007199254740992) ≤ (B + e) * (1 / 9007199254740992) := by
    apply mul_le_mul_of_nonneg_right h2; norm_num
  linarith

private theorem rne_int (n : Int) (h0 : 0 ≤ n) (h : n ≤ 9007199254740992) :
    Float.rne 53 (n : ℚ) = n := by
  have := (Float.nearestEven 53 (by decide)).int n (by rw [abs_of_nonneg h0]; norm_num; exact h)
  exact this

/-- The frequency of a slice's channel in double arithmetic, against that of the scan's channel. -/
private theorem slice_freq_err (fch1 foff : ℚ) (fine start i : Int) (hf : 0 ≤ fine) (hs : 0 ≤ start)
    (hi : 0 ≤ i) (hfine : fine < 2147483648) (hs' : start < 2147483648)
    (hsz : fine * (start + i) < 2147483648) :
    |doubleOps.add (doubleOps.add fch1
        (doubleOps.mul (doubleOps.mul foff (doubleOps.ofInt fine)) (doubleOps.ofInt start)))
        (doubleOps.mul foff (doubleOps.ofInt (fine * i))) -
      doubleOps.add fch1 (doubleOps.mul foff (doubleOps.ofInt (fine * (start + i))))| ≤
    7 * (1 / 9007199254740992) * (|fch1| + |foff| * (fine * (start + i) : Int)) := by
  have hfi : 0 ≤ fine * i := Int.mul_nonneg hf hi
  have hfs : 0 ≤ fine * start := Int.mul_nonneg hf hs
  have hadd : fine * (start + i) = fine * start + fine * i := Int.mul_add _ _ _
  simp only [doubleOps]
  rw [rne_int fine hf (by omega), rne_int start hs (by omega), rne_int (fine * i) hfi (by omega),
    rne_int (fine * (start + i)) (by omega) (by omega)]
  have hfq : (0 : ℚ) ≤ fine := by exact_mod_cast hf
  have hsq : (0 : ℚ) ≤ start := by exact_mod_cast hs
  have hiq : (0 : ℚ) ≤ i := by exact_mod_cast hi
  -- magnitudes
  obtain ⟨A, hA⟩ : ∃ A, A = |foff| * (fine * start) := ⟨_, rfl⟩
  obtain ⟨B, hB⟩ : ∃ B, B = |foff| * (fine * i) := ⟨_, rfl⟩
  have hA0 : 0 ≤ A := by rw [hA]; positivity
  have hB0 : 0 ≤ B := by rw [hB]; positivity
  have hF0 := abs_nonneg fch1
  -- slice
  have p1 : |Float.rne 53 (foff * (fine : ℚ)) - foff * fine| ≤
      |foff| * fine * (1 / 9007199254740992) := by
    have := rne53 (foff * fine)
    rwa [abs_mul, abs_of_nonneg hfq] at this
  have p2 : |Float.rne 53 (foff * (fine : ℚ)) * start - foff * fine * start| ≤
      A * (1 / 9007199254740992) := by
    rw [← sub_mul, abs_mul, abs_of_nonneg hsq, hA]
    calc _ ≤ |foff| * fine * (1 / 9007199254740992) * start :=
          mul_le_mul_of_nonneg_right p1 hsq
      _ = _ := by ring
  have p3 := rneStep (B := A) p2 (by
    rw [abs_mul, abs_mul, abs_of_nonneg hfq, abs_of_nonneg hsq, hA]
    exact le_of_eq (by ring))
  obtain ⟨e3, he3⟩ : ∃ e, e = A * (1 / 9007199254740992) +
    (A + A * (1 / 9007199254740992)) * (1 / 9007199254740992) := ⟨_, rfl⟩
  rw [← he3] at p3
  have p4 : |fch1 + Float.rne 53 (Float.rne 53 (foff * (fine : ℚ)) * start) -
      (fch1 + foff * fine * start)| ≤ e3 := by
    rw [add_sub_add_left_eq_sub]; exact p3
  have p5 := rneStep (B := |fch1| + A) p4 (by
    refine (abs_add_le _ _).trans ?_
    rw [abs_mul, abs_mul, abs_of_nonneg hfq, abs_of_nonneg hsq, hA]
    exact le_of_eq (by ring))
  obtain ⟨e5, he5⟩ : ∃ e, e = e3 + (|fch1| + A + e3) * (1 / 9007199254740992) := ⟨_, rfl⟩
  rw [← he5] at p5
  have p6 : |Float.rne 53 (foff * ((fine * i : Int) : ℚ)) - foff * (fine * i)| ≤
      B * (1 / 9007199254740992) := by
    have := rne53 (foff * (fine * i))
    rw [abs_mul, abs_of_nonneg (mul_nonneg hfq hiq), ← hB] at this
    push_cast
    exact this
  have p7 : |Float.rne 53 (fch1 + Float.rne 53 (Float.rne 53 (foff * (fine : ℚ)) * start)) +
      Float.rne 53 (foff * ((fine * i : Int) : ℚ)) -
      (fch1 + foff * fine * start + foff * (fine * i))| ≤ e5 + B * (1 / 9007199254740992) := by
    rw [add_sub_add_comm]
    exact (abs_add_le _ _).trans (add_le_add p5 p6)
  have p8 := rneStep (B := |fch1| + A + B) p7 (by
    refine (abs_add_le _ _).trans (add_le_add ((abs_add_le _ _).trans (add_le_add le_rfl ?_)) ?_)
    · rw [abs_mul, abs_mul, abs_of_nonneg hfq, abs_of_nonneg hsq, hA]
      exact le_of_eq (by ring)
    · rw [abs_mul, abs_of_nonneg (mul_nonneg hfq hiq), hB])
  -- scan
  have q1 : |Float.rne 53 (foff * ((fine * (start + i) : Int) : ℚ)) -
      (foff * fine * start + foff * (fine * i))| ≤ (A + B) * (1 / 9007199254740992) := by
    have := rne53 (foff * ((fine * (start + i) : Int) : ℚ))
    have e1 : foff * ((fine * (start + i) : Int) : ℚ) =
        foff * fine * start + foff * (fine * i) := by push_cast; ring
    have e2 : |foff * ((fine * (start + i) : Int) : ℚ)| = A + B := by
      have hk : (0 : ℚ) ≤ ((fine * (start + i) : Int) : ℚ) := by
        exact_mod_cast (by omega : 0 ≤ fine * (start + i))
      rw [abs_mul, abs_of_nonneg hk, hA, hB]
      push_cast; ring
    rw [e2] at this
    rw [e1] at this ⊢
    exact this
  have q2 : |fch1 + Float.rne 53 (foff * ((fine * (start + i) : Int) : ℚ)) -
      (fch1 + foff * fine * start + foff * (fine * i))| ≤ (A + B) * (1 / 9007199254740992) := by
    rw [add_assoc, add_sub_add_left_eq_sub]; exact q1
  have q3 := rneStep (B := |fch1| + A + B) q2 (by
    refine (abs_add_le _ _).trans (add_le_add ((abs_add_le _ _).trans (add_le_add le_rfl ?_)) ?_)
    · rw [abs_mul, abs_mul, abs_of_nonneg hfq, abs_of_nonneg hsq, hA]
      exact le_of_eq (by ring)
    · rw [abs_mul, abs_of_nonneg (mul_nonneg hfq hiq), hB])
  have hM : |foff| * ((fine * (start + i) : Int) : ℚ) = A + B := by
    rw [hA, hB]; push_cast; ring
  rw [hM]
  refine (abs_sub_le _ (fch1 + foff * fine * start + foff * (fine * i)) _).trans ?_
  rw [abs_sub_comm _ (Float.rne 53 (fch1 + Float.rne 53 (foff * ((fine * (start + i) : Int) : ℚ))))]
  refine (add_le_add p8 q3).trans ?_
  rw [he5, he3]
  nlinarith [hA0, hB0, hF0]

/-- **C29 (part), in double arithmetic.** Channel `i` of a slice and channel `start + i` of the scan
are the same except that their first frequencies may differ, by at most seven relative rounding
errors of the band edge plus the distance into the band. `doubleOps` has no overflow or underflow;
not for scans with transforms. -/
theorem C29_slice_double_partial (devOk : Dev → Bool) (s : Scan F ℚ Dev P)
    (start count i : Int) (h0 : 0 ≤ start) (hfine : 0 < s.fine)
    (hsize : s.fine * s.num < 2147483648) (hcount : 0 ≤ count) (hlast : start + count ≤ s.num)
    (hi0 : 0 ≤ i) (hi : i < count) (hp : s.pipeline = []) (c : Channel F ℚ Dev P)
    (hc : (read doubleOps devOk s (start + i)).2 = .ok c) :
    ∃ c', (read doubleOps devOk (slice doubleOps s start count) i).2 = .ok c' ∧
      { c' with fch1 := c.fch1 } = c ∧
      |c'.fch1 - c.fch1| ≤
        7 * (1 / 2 ^ 53) * (|s.fch1| + |s.hdr.foff| * (s.fine * (start + i) : Int)) := by
  obtain ⟨c', h1, h2, h3⟩ := C29_slice_any_arithmetic_partial doubleOps devOk s start count i h0
    hfine.le hsize hcount hlast hi0 hi hp c hc
  refine ⟨c', h1, h2, ?_⟩
  have e : (2 : ℚ) ^ 53 = 9007199254740992 := by norm_num
  rw [e]
  have hle : s.fine * (start + i) ≤ s.fine * s.num :=
    Int.mul_le_mul_of_nonneg_left (by omega) hfine.le
  have hnum : s.num ≤ s.fine * s.num := by
    have : 1 * s.num ≤ s.fine * s.num := Int.mul_le_mul_of_nonneg_right (by omega) (by omega)
    omega
  have hfl : s.fine ≤ s.fine * s.num := by
    have : s.fine * 1 ≤ s.fine * s.num := Int.mul_le_mul_of_nonneg_left (by omega) hfine.le
    omega
  rcases h3 with h3 | ⟨h3, h4⟩
  · rw [h3, sub_self, abs_zero]
    have : (0 : ℚ) ≤ ((s.fine * (start + i) : Int) : ℚ) := by
      exact_mod_cast Int.mul_nonneg hfine.le (by omega)
    positivity
  · rw [h3, h4]
    exact slice_freq_err s.fch1 s.hdr.foff s.fine start i hfine.le h0 hi0 (by omega) (by omega)
      (by omega)

/-- The example scan with the offset a `double` can hold. -/
def doubleScan : Scan ℚ ℚ Bool Unit :=
  { exScan with hdr := { exHeader with foff := Float.rne 53 (-1 / 1000) } }

example : ∃ c, (read doubleOps id doubleScan (1 + 1)).2 = .ok c ∧ c.data = .file [0, 0, 8] [16, 1, 4] := by
  rw [read_view]
  exact ⟨_, rfl, rfl⟩

/-- **C29 fails in double arithmetic**: the first frequency of channel 1 of the slice from channel 1
is not that of channel 2 of the scan, and slicing twice is not one slice. -/
theorem C29_rounding :
    (∃ c c', (read doubleOps id doubleScan 2).2 = .ok c ∧
      (read doubleOps id (slice doubleOps doubleScan 1 2) 1).2 = .ok c' ∧ c'.fch1 < c.fch1) ∧
    (slice doubleOps (slice doubleOps doubleScan 1 2) 1 1).fch1 <
      (slice doubleOps doubleScan 2 1).fch1 := by
  refine ⟨?_, by decide +kernel⟩
  rw [read_view, read_view]
  refine ⟨_, _, rfl, rfl, ?_⟩
  decide +kernel

/-! ## Frequency look-ups -/

private theorem relStep {x y e : ℚ} (hxy : |x - y| ≤ e * |y|) :
    |Float.rne 53 x - y| ≤ (e + (1 + e) * (1 / 9007199254740992)) * |y| := by
  have h := rneStep hxy le_rfl
  calc _ ≤ _ := h
    _ = _ := by ring

/-- **C31 (part), in double arithmetic.** A frequency that lies `x` fine channels into coarse channel
`i` is looked up as `i` whenever `x` is away from both edges of the channel by five rounding errors
of the width of the band in fine channels — a millionth of a fine channel for a band of `2^30`. At
the edges it can fail (`C31_rounding`). -/
theorem C31_double_partial (s : Scan F ℚ Dev P) (hf : 0 < s.fine)
    (hc : s.nchans = s.num * s.fine) (hsize : s.nchans < 2147483648) (hfoff : s.hdr.foff ≠ 0)
    (i : Int) (hi0 : 0 ≤ i) (hi : i < s.num) (f x : ℚ)
    (hfx : f - s.fch1 = s.hdr.foff * ((s.fine : ℚ) * i + x))
    (hx0 : 5 * (1 / 2 ^ 53) * s.nchans ≤ x) (hx : x < s.fine - 5 * (1 / 2 ^ 53) * s.nchans) :
    channelWithFrequency doubleOps s f = i := by
  have e53 : (2 : ℚ) ^ 53 = 9007199254740992 := by norm_num
  rw [e53] at hx0 hx
  have hn : 0 < s.num := by omega
  have hfq : (0 : ℚ) < s.fine := by exact_mod_cast hf
  have hnq : (0 : ℚ) < s.num := by exact_mod_cast hn
  have hnle : s.num ≤ s.nchans := by
    rw [hc]
    have : s.num * 1 ≤ s.num * s.fine := Int.mul_le_mul_of_nonneg_left (by omega) hn.le
    omega
  have hcq : (s.nchans : ℚ) = s.num * s.fine := by rw [hc]; push_cast; ring
  have hc0 : (0 : ℚ) < s.nchans := by rw [hcq]; positivity
  unfold channelWithFrequency
  simp only [doubleOps]
  rw [rne_int s.nchans (by omega) (by omega), rne_int s.num hn.le (by omega), Int.floor_eq_iff, hfx]
  obtain ⟨z, hz⟩ : ∃ z, z = (s.fine : ℚ) * i + x := ⟨_, rfl⟩
  rw [← hz]
  have d1 : |Float.rne 53 (s.hdr.foff * z) - s.hdr.foff * z| ≤
      (1 / 9007199254740992) * |s.hdr.foff * z| := by
    have := rne53 (s.hdr.foff * z); linarith
  have scale : ∀ (a y e k : ℚ), |a - y| ≤ e * |y| → |a * k - y * k| ≤ e * |y * k| := by
    intro a y e k h
    rw [← sub_mul, abs_mul, abs_mul, ← mul_assoc]
    exact mul_le_mul_of_nonneg_right h (abs_nonneg _)
  have d2 := scale _ _ _ (s.hdr.foff)⁻¹ d1
  have e2 : s.hdr.foff * z * (s.hdr.foff)⁻¹ = z := by field_simp
  rw [e2, ← div_eq_mul_inv] at d2
  have d3 := scale _ _ _ (s.nchans : ℚ)⁻¹ (relStep d2)
  rw [← div_eq_mul_inv] at d3
  have d4 := scale _ _ _ (s.num : ℚ) (relStep d3)
  have d5 := relStep d4
  have eY : z * (s.nchans : ℚ)⁻¹ * s.num = i + x / s.fine := by
    rw [hz, hcq]; field_simp
  rw [eY] at d5
  have hxf0 : 0 ≤ x / s.fine := by
    apply div_nonneg _ hfq.le
    have : (0 : ℚ) ≤ 5 * (1 / 9007199254740992) * s.nchans := by positivity
    linarith
  have hlow : 5 * (1 / 9007199254740992) * s.num ≤ x / s.fine := by
    rw [le_div_iff₀ hfq]; rw [hcq] at hx0; linarith
  have hhigh : x / s.fine < 1 - 5 * (1 / 9007199254740992) * s.num := by
    rw [div_lt_iff₀ hfq]; rw [hcq] at hx; linarith
  have hiq : (0 : ℚ) ≤ i := by exact_mod_cast hi0
  have hin : (i : ℚ) + 1 ≤ s.num := by exact_mod_cast hi
  have hYn : (i : ℚ) + x / s.fine ≤ s.num := by
    have : (0 : ℚ) ≤ 5 * (1 / 9007199254740992) * s.num := by positivity
    linarith
  rw [abs_of_nonneg (by linarith : (0 : ℚ) ≤ i + x / s.fine)] at d5
  have d6 := d5.trans (show _ ≤ 5 * (1 / 9007199254740992) * (s.num : ℚ) from by
    refine mul_le_mul (by norm_num) hYn (by linarith) (by norm_num))
  rw [abs_le] at d6
  constructor <;> linarith [d6.1, d6.2]

/-- The centre of fine channel 2 of coarse channel 1 of the example. -/
example : channelWithFrequency doubleOps doubleScan
    (8400 + Float.rne 53 (-1 / 1000) * 6.5) = 1 := by
  have e53 : (2 : ℚ) ^ 53 = 9007199254740992 := by norm_num
  have hne : Float.rne 53 (-1 / 1000) ≠ 0 := by decide +kernel
  refine C31_double_partial doubleScan (by decide) (by decide) (by decide) hne 1 (by decide)
    (by decide) _ 2.5 ?_ ?_ ?_
  · simp only [doubleScan, exScan]; push_cast; ring
  · simp only [doubleScan, exScan]; rw [e53]; norm_num
  · simp only [doubleScan, exScan]; rw [e53]; norm_num

end Bliss.Scan
