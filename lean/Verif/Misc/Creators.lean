import Verif.Base
import Verif.Float.Rounding
import Mathlib.Tactic.ByContra
import Mathlib.Tactic.Linarith
import Mathlib.Tactic.Positivity
import Mathlib.Tactic.FieldSimp
import Mathlib.Data.Rat.Floor

/-!
# arange and linspace (C56)

Models `bland::arange` and `bland::linspace`, bland/bland/ops/creators.cpp lines 14-103 and
220-310, on a CPU array, for 64-bit integers and for floating-point numbers. An array is the list
of its elements: the code stores `data[ii]` for `ii = 0 … n-1` into a fresh block of `n` elements.
-/

namespace Bliss.Creators

/-- `int64_t` holds `x`. -/
def I64 (x : Int) : Prop := -2 ^ 63 ≤ x ∧ x < 2 ^ 63

instance (x : Int) : Decidable (I64 x) := inferInstanceAs (Decidable (_ ∧ _))

/-- Allocation of `n` elements and the loop `for (int ii = 0; ii < n; ++ii)` (creators.cpp lines
16-26): a negative size cannot be allocated (bland_tensor_internals.cpp lines 77-84, the size
becomes a huge unsigned number), and the `int` counter overflows beyond `2^31 - 1` elements. -/
def build {α : Type} (n : Int) (f : Nat → α) : Outcome (List α) :=
  if n < 0 then .throws .runtimeError
  else if 2 ^ 31 ≤ n then .ub
  else .ok ((List.range n.toNat).map f)

/-- creators.cpp lines 14-103 with `int64_t` arguments and result: `(end - start) / step` truncates
towards zero; signed overflow and division by zero are undefined. -/
def arangeInt (start stop step : Int) : Outcome (List Int) :=
  if ¬ I64 (stop - start) ∨ step = 0 ∨ (stop - start = -2 ^ 63 ∧ step = -1) then .ub
  else build ((stop - start).tdiv step) (fun i => start + step * i)

/-- Truncation of a rational towards zero (`static_cast<int64_t>`). -/
def truncQ (x : ℚ) : Int := if 0 ≤ x then ⌊x⌋ else -⌊-x⌋

/-- creators.cpp lines 14-103 with floating-point arguments and result: `r` rounds the exact result
of each operation to the type. Division by zero gives an infinity or NaN, whose conversion to
`int64_t` is undefined, as is that of a value out of range. -/
def arangeFloat (r : ℚ → ℚ) (start stop step : ℚ) : Outcome (List ℚ) :=
  if step = 0 then .ub
  else
    let q := r (r (stop - start) / step)
    if ¬ I64 (truncQ q) then .ub
    else build (truncQ q) (fun i => r (start + r (step * r i)))

/-- creators.cpp lines 220-310 with floating-point arguments and result: `number_steps` is
converted to the type. Zero steps divide by zero, which gives an unused infinity or NaN. -/
def linspaceFloat (r : ℚ → ℚ) (start stop : ℚ) (n : Nat) : Outcome (List ℚ) :=
  build n (fun i => r (start + r (r (r (stop - start) / r n) * r i)))

/-- Conversion to a 64-bit signed integer of a number computed in `size_t`. -/
def toI64 (x : Int) : Int := (x + 2 ^ 63) % 2 ^ 64 - 2 ^ 63

/-- creators.cpp lines 220-310 with `int64_t` arguments and result: `(end - start) / number_steps`
mixes a signed difference with a `size_t`, so the difference is taken modulo `2^64` and the
division, product and sum are unsigned; integer division by zero is undefined. -/
def linspaceInt (start stop : Int) (n : Nat) : Outcome (List Int) :=
  if ¬ I64 (stop - start) ∨ n = 0 then .ub
  else
    let step := ((stop - start) % 2 ^ 64) / n
    build n (fun i => toI64 ((start % 2 ^ 64 + step * i) % 2 ^ 64))

/-! ## Specification -/

/-- The numbers `start, start + step, …` that lie before `stop` (in the direction of `step`), in
order and without omission: what arange should return. -/
structure IsRange (start stop step : ℚ) (l : List ℚ) : Prop where
  vals : ∀ i (h : i < l.length), l[i] = start + i * step
  below : ∀ x ∈ l, 0 < step * (stop - x)
  all : ∀ i : Nat, 0 < step * (stop - (start + i * step)) → i < l.length

/-! ## arange -/

theorem build_ok {α : Type} {n : Int} (h0 : 0 ≤ n) (h1 : n < 2 ^ 31) (f : Nat → α) :
    build n f = .ok ((List.range n.toNat).map f) := by
  unfold build
  rw [if_neg (by omega), if_neg (by omega)]

/-- The elements of an integer range are as specified and none reaches `stop`, for every start,
stop and step of which the step points from start to stop. Missing from **C56**: the number of
elements, which is rounded down instead of up (`C56_arange_int_count`). -/
theorem C56_arange_int_partial {start stop step : Int} (hI : I64 (stop - start)) (hs : 0 < step)
    (hle : start ≤ stop) (hlen : (stop - start) / step < 2 ^ 31) :
    ∃ l, arangeInt start stop step = .ok l ∧ (l.length : Int) = (stop - start) / step ∧
      (∀ i (h : i < l.length), l[i] = start + i * step) ∧
      (∀ x ∈ l, start ≤ x ∧ x < stop) ∧
      (step ∣ stop - start → IsRange start stop step (l.map (fun x : Int => (x : ℚ)))) := by
  have hq : (stop - start).tdiv step = (stop - start) / step :=
    Int.tdiv_eq_ediv_of_nonneg (by omega)
  have hq0 : 0 ≤ (stop - start) / step := Int.ediv_nonneg (by omega) (by omega)
  have hmul : step * ((stop - start) / step) ≤ stop - start := Int.mul_ediv_self_le (by omega)
  refine ⟨(List.range ((stop - start) / step).toNat).map (fun i => start + step * (i : Nat)),
    ?_, ?_, ?_, ?_, ?_⟩
  · unfold arangeInt
    rw [if_neg (by push Not; exact ⟨hI, by omega, fun h => by omega⟩), hq, build_ok hq0 hlen]
  · simp; omega
  · intro i h; simp; ring
  · intro x hx
    simp only [List.mem_map, List.mem_range] at hx
    obtain ⟨i, hi, rfl⟩ := hx
    have h1 : 0 ≤ step * (i : Int) := by positivity
    have h2 : step * ((i : Int) + 1) ≤ step * ((stop - start) / step) :=
      mul_le_mul_of_nonneg_left (by omega) (by omega)
    rw [mul_add, mul_one] at h2
    omega
  · intro hd
    have heq : step * ((stop - start) / step) = stop - start := Int.mul_ediv_cancel' hd
    refine ⟨?_, ?_, ?_⟩
    · intro i h; simp; ring
    · intro x hx
      simp only [List.map_map, List.mem_map, List.mem_range, Function.comp_apply] at hx
      obtain ⟨i, hi, rfl⟩ := hx
      have h2 : step * ((i : Int) + 1) ≤ step * ((stop - start) / step) :=
        mul_le_mul_of_nonneg_left (by omega) (by omega)
      have h3 : step * (i : Int) < stop - start := by rw [mul_add, mul_one] at h2; omega
      have h4 : (0 : ℚ) < step := by exact_mod_cast hs
      have h5 : ((step * (i : Int) : Int) : ℚ) < ((stop - start : Int) : ℚ) := by exact_mod_cast h3
      push_cast at h5 ⊢
      exact mul_pos h4 (by linarith)
    · intro i hi
      have h4 : (0 : ℚ) < step := by exact_mod_cast hs
      have h5 : (0 : ℚ) < (stop : ℚ) - (start + i * step) := by
        by_contra hc
        have := mul_nonpos_of_nonneg_of_nonpos h4.le (not_lt.1 hc)
        linarith
      have h6 : (i : Int) * step < stop - start := by
        have : ((i : Int) * step : ℚ) < ((stop - start : Int) : ℚ) := by push_cast; linarith
        exact_mod_cast this
      have h7 : (i : Int) < (stop - start) / step := by
        by_contra hc
        have := mul_le_mul_of_nonneg_left (not_lt.1 hc) (le_of_lt hs)
        rw [heq] at this
        linarith [mul_comm (i : Int) step]
      simp; omega

/-- A range of `2^31` elements or more is undefined: the counter overflows, also for exactly `2^31`. -/
theorem C56_arange_int_too_long {start stop step : Int} (hle : start ≤ stop)
    (hlen : 2 ^ 31 ≤ (stop - start) / step) : arangeInt start stop step = .ub := by
  unfold arangeInt
  split
  · rfl
  · rw [Int.tdiv_eq_ediv_of_nonneg (by omega)]
    unfold build
    rw [if_neg (by omega), if_pos hlen]

example : arangeInt 0 (2 ^ 31) 1 = .ub := C56_arange_int_too_long (by decide) (by decide)

/-- **C56** fails: an integer range whose step does not divide the distance is one element short,
for every such start, stop and step: the number `start + n * step` with `n` the length returned is
still before `stop`. -/
theorem C56_arange_int_count {start stop step : Int} {l : List Int} (hs : 0 < step)
    (hle : start ≤ stop) (hnd : ¬ step ∣ stop - start) (h : arangeInt start stop step = .ok l) :
    start + l.length * step < stop ∧ ¬ IsRange start stop step (l.map (fun x : Int => (x : ℚ))) := by
  unfold arangeInt at h
  split at h
  · cases h
  · rw [Int.tdiv_eq_ediv_of_nonneg (by omega)] at h
    have hq0 : 0 ≤ (stop - start) / step := Int.ediv_nonneg (by omega) (by omega)
    unfold build at h
    rw [if_neg (by omega)] at h
    split at h
    · cases h
    · simp only [Outcome.ok.injEq] at h
      have hlen : (l.length : Int) = (stop - start) / step := by rw [← h]; simp; omega
      have h1 : (stop - start) / step * step < stop - start := by
        have h2 := Int.ediv_mul_le (stop - start) (b := step) (by omega)
        rcases lt_or_eq_of_le h2 with h3 | h3
        · exact h3
        · exact absurd ⟨(stop - start) / step, by rw [mul_comm]; exact h3.symm⟩ hnd
      have h4 : start + l.length * step < stop := by rw [hlen]; linarith
      refine ⟨h4, fun hr => ?_⟩
      have := hr.all l.length (by
        have h5 : (0 : ℚ) < step := by exact_mod_cast hs
        have h6 : ((start + l.length * step : Int) : ℚ) < ((stop : Int) : ℚ) := by exact_mod_cast h4
        push_cast at h6
        exact mul_pos h5 (by linarith))
      simp at this

/-- A step that points away from `stop` is refused with an exception instead of giving an empty
range (when it divides to something below zero). -/
theorem C56_arange_int_backwards {start stop step : Int} (hI : I64 (stop - start))
    (hne : ¬ (stop - start = -2 ^ 63 ∧ step = -1)) (hs : 0 < step) (hd : stop - start ≤ -step) :
    arangeInt start stop step = .throws .runtimeError := by
  unfold arangeInt
  rw [if_neg (by push Not; refine ⟨hI, by omega, fun h h' => hne ⟨h, h'⟩⟩)]
  have h1 : (stop - start).tdiv step < 0 := by
    have h2 : (stop - start).tdiv step = -((-(stop - start)) / step) := by
      rw [← Int.tdiv_eq_ediv_of_nonneg (by omega), Int.neg_tdiv, neg_neg]
    rw [h2]
    have : 1 ≤ (-(stop - start)) / step := by
      rw [Int.le_ediv_iff_mul_le hs]; omega
    omega
  unfold build
  rw [if_pos h1]

theorem truncQ_nonneg {x : ℚ} (h : 0 ≤ x) : truncQ x = ⌊x⌋ := by rw [truncQ, if_pos h]

/-- Floating-point ranges in which every intermediate result is exact: elements as specified,
number of elements rounded down. Missing from **C56**: rounding up, and inexact arithmetic. -/
theorem C56_arange_float_partial {r : ℚ → ℚ} {start stop step : ℚ} (hs : 0 < step)
    (hle : start ≤ stop) (hlen : ⌊(stop - start) / step⌋ < 2 ^ 31)
    (hr1 : r (stop - start) = stop - start) (hr2 : r ((stop - start) / step) = (stop - start) / step)
    (hr3 : ∀ i : Nat, (i : Int) < ⌊(stop - start) / step⌋ →
      r i = i ∧ r (step * i) = step * i ∧ r (start + step * i) = start + step * i) :
    ∃ l, arangeFloat r start stop step = .ok l ∧ (l.length : Int) = ⌊(stop - start) / step⌋ ∧
      (∀ i (h : i < l.length), l[i] = start + i * step) ∧
      (∀ x ∈ l, start ≤ x ∧ x < stop) := by
  have hq0 : 0 ≤ (stop - start) / step := div_nonneg (by linarith) hs.le
  have hf0 : 0 ≤ ⌊(stop - start) / step⌋ := Int.floor_nonneg.2 hq0
  have hval : ∀ i : Nat, (i : Int) < ⌊(stop - start) / step⌋ →
      r (start + r (step * r i)) = start + step * i := by
    intro i hi
    obtain ⟨h1, h2, h3⟩ := hr3 i hi
    rw [h1, h2, h3]
  refine ⟨(List.range ⌊(stop - start) / step⌋.toNat).map
    (fun i : Nat => r (start + r (step * r i))), ?_, ?_, ?_, ?_⟩
  · unfold arangeFloat
    simp only [hr1, hr2, truncQ_nonneg hq0]
    rw [if_neg hs.ne', if_neg (by push Not; exact ⟨by omega, by omega⟩), build_ok hf0 hlen]
  · simp; omega
  · intro i h
    have hi : (i : Int) < ⌊(stop - start) / step⌋ := by simp at h; omega
    simp only [List.getElem_map, List.getElem_range]
    rw [hval i hi]; ring
  · intro x hx
    simp only [List.mem_map, List.mem_range] at hx
    obtain ⟨i, hi, rfl⟩ := hx
    have hi : (i : Int) + 1 ≤ ⌊(stop - start) / step⌋ := by omega
    rw [hval i (by omega)]
    have h1 : ((i : Int) : ℚ) + 1 ≤ (stop - start) / step := by
      have : (((i : Int) + 1 : Int) : ℚ) ≤ ⌊(stop - start) / step⌋ := by exact_mod_cast hi
      push_cast at this ⊢
      exact le_trans this (Int.floor_le _)
    rw [le_div_iff₀ hs] at h1
    push_cast at h1
    have h2 : 0 ≤ step * (i : ℚ) := by positivity
    constructor <;> nlinarith

/-- **C56** fails for floats: `arange(0, 1, 0.4)`, computed in 32-bit floats, has the two elements
`0` and `0.4` and omits `0.8`. -/
theorem C56_arange_float_short :
    ∃ l, arangeFloat (Float.rne 24) 0 1 (Float.rne 24 (2 / 5)) = .ok l ∧ l.length = 2 ∧
      0 + (2 : ℚ) * Float.rne 24 (2 / 5) < 1 :=
  ⟨[0, Float.rne 24 (2 / 5)], by decide +kernel, rfl, by decide +kernel⟩

/-! ## linspace -/

/-- **C56**, linspace of floats: `n` elements, the first is `start`, and they are monotone, for any
rounding (`p` bits, zero and start representable). -/
theorem C56_linspace_float {p : Nat} (R : Float.Rounding p) {start stop : ℚ} {n : Nat}
    (hn : n < 2 ^ 31) (hstart : R.r start = start) :
    ∃ l, linspaceFloat R.r start stop n = .ok l ∧ l.length = n ∧
      (∀ h : 0 < l.length, l[0] = start) ∧
      (start ≤ stop → ∀ i j (hi : i < l.length) (hj : j < l.length), i ≤ j → l[i] ≤ l[j]) := by
  refine ⟨_, build_ok (by omega) (by exact_mod_cast hn) _, by simp, ?_, ?_⟩
  · intro h
    simp only [List.getElem_map, List.getElem_range, Nat.cast_zero, R.zero, mul_zero, add_zero]
    exact hstart
  · intro hle i j hi hj hij
    simp only [List.getElem_map, List.getElem_range]
    apply R.mono
    have h0 : 0 ≤ R.r (R.r (stop - start) / R.r n) :=
      R.nonneg (div_nonneg (R.nonneg (by linarith)) (R.nonneg (by positivity)))
    have h1 : R.r i ≤ R.r j := R.mono _ _ (by exact_mod_cast hij)
    have h2 := R.mono _ _ (mul_le_mul_of_nonneg_left h1 h0)
    linarith

/-- In exact arithmetic the elements of linspace are evenly spaced by `(stop - start) / n`; the end
point itself is not reached. -/
theorem C56_linspace_exact {start stop : ℚ} {n : Nat} (hn : n < 2 ^ 31) :
    ∃ l, linspaceFloat id start stop n = .ok l ∧ l.length = n ∧
      ∀ i (h : i < l.length), l[i] = start + i * ((stop - start) / n) :=
  ⟨_, build_ok (by omega) (by exact_mod_cast hn) _, by simp, fun i h => by simp; ring⟩

theorem toI64_of_lt {x : Int} (h : I64 x) : toI64 (x % 2 ^ 64) = x := by
  unfold toI64 I64 at *; omega

/-- Linspace of integers that does not decrease: `n` elements from `start`, spaced by the quotient
rounded down. -/
theorem C56_linspace_int_partial {start stop : Int} {n : Nat} (hs : I64 start) (ht : I64 stop)
    (hd : I64 (stop - start)) (hle : start ≤ stop) (h0 : 0 < n) (hn : n < 2 ^ 31) :
    ∃ l, linspaceInt start stop n = .ok l ∧ l.length = n ∧
      ∀ i (h : i < l.length), l[i] = start + i * ((stop - start) / n) := by
  refine ⟨(List.range n).map (fun (i : Nat) =>
      toI64 ((start % 2 ^ 64 + ((stop - start) % 2 ^ 64) / n * i) % 2 ^ 64)), ?_, ?_, ?_⟩
  · unfold linspaceInt
    rw [if_neg (by push Not; exact ⟨hd, by omega⟩)]
    simp only []
    rw [build_ok (by omega) (by exact_mod_cast hn)]
    simp
  · simp
  · intro i h
    have hi : i < n := by simpa using h
    simp only [List.getElem_map, List.getElem_range]
    have h1 : (stop - start) % 2 ^ 64 = stop - start := by unfold I64 at hd; omega
    rw [h1]
    have hq0 : 0 ≤ (stop - start) / n := Int.ediv_nonneg (by omega) (by omega)
    have hle2 : (stop - start) / n * i ≤ stop - start := by
      have a1 : (stop - start) / n * i ≤ (stop - start) / n * n :=
        mul_le_mul_of_nonneg_left (by omega) hq0
      have a2 := Int.ediv_mul_le (stop - start) (b := (n : Int)) (by omega)
      linarith
    have h2 : 0 ≤ (stop - start) / n * i := mul_nonneg hq0 (by omega)
    have h3 : I64 (start + (stop - start) / n * i) := by unfold I64 at *; omega
    rw [Int.emod_add_emod, toI64_of_lt h3]; ring

/-- **C56** fails for decreasing integers: `linspace(10, 0, 5)` does not step down from ten. -/
theorem C56_linspace_int_decreasing :
    linspaceInt 10 0 5 = .ok [10, 3689348814741910331, 7378697629483820652,
      -7378697629483820643, -3689348814741910322] := by decide +kernel

/-- **C56**: an integer linspace of no elements divides by zero. -/
theorem C56_linspace_int_empty (start stop : Int) : linspaceInt start stop 0 = .ub := by
  simp [linspaceInt]

/-- Concrete case for `C56_arange_int_partial` and `C56_arange_int_count`. -/
example : arangeInt 2 12 5 = .ok [2, 7] ∧ arangeInt 2 13 5 = .ok [2, 7] ∧
    arangeInt 5 2 1 = .throws .runtimeError := by decide

/-- Concrete case for `C56_arange_float_partial`: quarters are exact in 32-bit floats. -/
example : arangeFloat (Float.rne 24) 1 2 (1 / 4) = .ok [1, 5 / 4, 3 / 2, 7 / 4] := by
  decide +kernel

/-- Concrete case for `C56_linspace_float`. -/
example : linspaceFloat (Float.rne 24) 0 1 4 = .ok [0, 1 / 4, 1 / 2, 3 / 4] := by decide +kernel

end Bliss.Creators
