import Verif.Flag.Outliers
import Verif.Stat.Accuracy

/-!
# Flagging of outliers in float arithmetic (C126)

`C126_fraction_partial` bounds the number of flagged samples in exact arithmetic. In the arithmetic of
the program the bound fails: the standard deviation comes from the difference of two rounded sums
(`statistical_cpu.cpp:322`), and for samples that are close together relative to their size the
difference comes out as 0.
-/

namespace Bliss.Flag

open Bliss.Nd Bliss.Stat Bliss.Float

/-- The samples that are one unit in the last place above the others. -/
def raised : List Int := [1, 4, 7, 9, 11, 12, 14]

/-- Fifteen samples near 1.99: eight of them 16713806 · 2⁻²³ and seven the next `float`. -/
def closeSample (k : Int) : ℚ := if k ∈ raised then 16713807 / 2 ^ 23 else 16713806 / 2 ^ 23

/-- A channel of these samples, without flags. -/
def closeHeap : Heap (Val ℚ) where
  mem b := if b = 0 then Buf.ofFn 15 fun k => .num (closeSample k)
    else if b = 1 then Buf.ofFn 15 fun _ => .flag 0 else fun _ => none
  next := 2

/-- `float` data, `double` accumulators, both rounded to nearest as IEEE 754 has it. -/
def ieeeOps (sqrt : ℚ → ℚ) : StatOps ℚ ℚ := roundOps (rne 24) (rne 53) sqrt

/-- `mean + 10*stddev` in `float` (`magnitude.cpp:33`). -/
def ieeeLimit (m s : ℚ) : ℚ := rne 24 (m + rne 24 (10 * s))

/-- The samples in the order in which the reductions visit them. -/
def closeOrder : List (List Int) := (List.range 15).map fun k : Nat => [(k : Int)]

theorem close_order : order (dense 0 [15]).shape [] [0] = closeOrder := by decide +kernel

theorem close_mean : rne 24 (rne 53 (closeOrder.foldl
    (fun acc i => rne 53 (acc + closeSample (i.headD 0))) 0 / rne 53 15)) = 16713806 / 2 ^ 23 := by
  decide +kernel

theorem close_dev : (ieeeOps id).clip ((ieeeOps id).sub
    (closeOrder.foldl (fun acc i => devStep (ieeeOps id) 15 acc (closeSample (i.headD 0))) (0, 0)).2
    ((ieeeOps id).mul
      (closeOrder.foldl (fun acc i => devStep (ieeeOps id) 15 acc (closeSample (i.headD 0))) (0, 0)).1
      (closeOrder.foldl (fun acc i => devStep (ieeeOps id) 15 acc (closeSample (i.headD 0))) (0, 0)).1))
    = 0 := by
  decide +kernel

theorem close_limit (sqrt : ℚ → ℚ) (h0 : sqrt 0 = 0) :
    limitOf (ieeeOps sqrt) ieeeLimit (fun i => closeSample (i.headD 0)) closeOrder =
      16713806 / 2 ^ 23 := by
  have hm := close_mean
  have hd := close_dev
  have hlen : (closeOrder.length : Int) = 15 := by decide
  have hz : rne 24 0 = 0 := by decide +kernel
  have e1 : (ieeeOps sqrt).toV ((ieeeOps sqrt).div (closeOrder.foldl (fun acc i =>
      (ieeeOps sqrt).add acc ((ieeeOps sqrt).toD (closeSample (i.headD 0)))) (ieeeOps sqrt).zero)
      ((ieeeOps sqrt).ofInt closeOrder.length)) = 16713806 / 2 ^ 23 := by
    rw [hlen]
    exact hm
  have e2 : devFinish (ieeeOps sqrt) (closeOrder.foldl (fun acc i =>
      devStep (ieeeOps sqrt) closeOrder.length acc (closeSample (i.headD 0)))
      ((ieeeOps sqrt).zero, (ieeeOps sqrt).zero)) = 0 := by
    rw [hlen]
    have : devFinish (ieeeOps sqrt) (closeOrder.foldl (fun acc i =>
      devStep (ieeeOps sqrt) 15 acc (closeSample (i.headD 0)))
      ((ieeeOps sqrt).zero, (ieeeOps sqrt).zero)) = rne 24 (sqrt 0) := by
      rw [← hd]; rfl
    rw [this, h0, hz]
  rw [limitOf, e1, e2]
  decide +kernel

/-- **C126 (violation).** In float arithmetic nearly half of a channel can be flagged as lying ten
standard deviations above the mean: of fifteen samples that are all equal up to one unit in the last
place, the seven larger ones are flagged, because the standard deviation is computed as 0. In exact
arithmetic none would be (`C126_fraction_partial`). -/
theorem C126_rounding_flags_half (sqrt : ℚ → ℚ) (h0 : sqrt 0 = 0) (j : Nat → Int → Val ℚ) :
    (∀ k, rne 24 (closeSample k) = closeSample k) ∧ raised.length = 7 ∧
    ∃ h' r, flagMagnitudeDefault (ieeeOps sqrt) (fun x y => decide (y < x)) ieeeLimit (dense 0 [15])
        (dense 1 [15]) j closeHeap = .ok (h', r) ∧ r.shape = [15] ∧
      ∀ k : Int, 0 ≤ k → k < 15 →
        h'.get r [k] = some (.flag (if k ∈ raised then magnitudeFlag else 0)) := by
  have hv : ∀ k, ValidIdx [15] k → ∃ m : Int, k = [m] ∧ 0 ≤ m ∧ m < 15 := by
    intro k hk
    match k, hk with
    | [x], hk =>
      simp only [ValidIdx, List.forall₂_cons, List.Forall₂.nil, and_true] at hk
      exact ⟨x, rfl, hk.1, hk.2⟩
  refine ⟨fun k => ?_, rfl, ?_⟩
  · unfold closeSample
    split <;> decide +kernel
  have hX : closeHeap.Contains (dense 0 [15]) (fun i => .num (closeSample (i.headD 0))) := by
    intro k hk
    obtain ⟨m, rfl, h1, h2⟩ := hv k hk
    have ha : addr (dense 0 [15]).dims [m] = m := by simp [addr, dense, denseDims]
    simp only [Heap.get, ha]
    simp [closeHeap, dense, Buf.ofFn, h1, h2]
  have hM : closeHeap.Contains (dense 1 [15]) (fun _ => .flag 0) := by
    intro k hk
    obtain ⟨m, rfl, h1, h2⟩ := hv k hk
    have ha : addr (dense 1 [15]).dims [m] = m := by simp [addr, dense, denseDims]
    simp only [Heap.get, ha]
    simp [closeHeap, dense, Buf.ofFn, h1, h2]
  obtain ⟨h', r, e1, e2, -⟩ := magnitude_default_spec (ieeeOps sqrt) (fun x y => decide (y < x))
    ieeeLimit (dense 0 [15]) (dense 1 [15]) _ _ closeHeap j rfl (by decide) (wf_of_shape (by decide))
    hX hM (by decide) (by decide)
  refine ⟨h', r, e1, e2.shape, fun k h1 h2 => ?_⟩
  rw [e2.contains [k] (by rw [e2.shape]; exact .cons ⟨h1, h2⟩ .nil), close_order,
    close_limit sqrt h0]
  simp only [List.headD_cons, closeSample]
  by_cases hk : k ∈ raised
  · simp only [hk, if_true]
    rw [show decide ((16713806 / 2 ^ 23 : ℚ) < 16713807 / 2 ^ 23) = true by decide +kernel]
    simp
  · simp [hk]

end Bliss.Flag
