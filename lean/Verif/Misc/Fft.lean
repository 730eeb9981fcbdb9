import Verif.Base
import Verif.Float.Rounding
import Mathlib.Tactic.ByContra
import Mathlib.Tactic.Linarith
import Mathlib.Data.List.Perm.Subperm
import Mathlib.Data.List.Nodup
import Mathlib.Tactic.IntervalCases

/-!
# Shifted power spectrum on the CPU (C59)

Models `bland::cpu::fft_shift_mag_square`, bland/bland/ops/cpu/frequency_cpu_impl.cpp lines 20-52.
The transform itself is FFTW and is not modelled: `mag i` stands for the value
`real*real + imag*imag` of the `i`-th of the `N/2 + 1` outputs of `fftwf_plan_dft_r2c_1d`.
-/

namespace Bliss.Fft

open Bliss.Float

variable {F : Type}

/-- frequency_cpu_impl.cpp line 23: `floor(N/2) + 1`, the number of outputs of the real
transform. -/
def halfN (n : Nat) : Nat := n / 2 + 1

/-- frequency_cpu_impl.cpp line 33: `ceil((N-1)/2.0f)`. The integer `N-1` is converted to a
32-bit float (`rne 24`); dividing a float by two is exact. `int N = shape[0]` is taken not to
overflow. -/
def dcIndex (n : Nat) : Int := ⌈rne 24 ((n : ℚ) - 1) / 2⌉

/-- frequency_cpu_impl.cpp lines 35-46: the stores of the loop in program order, as pairs of an
output index and the number of the transform output that is stored there. -/
def stores (n : Nat) : List (Int × Nat) :=
  (List.range (halfN n)).flatMap fun (i : Nat) =>
    if i = 0 then [(dcIndex n + i, i)] else [(dcIndex n + i, i), (dcIndex n - i, i)]

/-- Perform a list of stores. -/
def runStores (mag : Nat → F) : List (Int × Nat) → Buf F → Outcome (Buf F)
  | [], b => .ok b
  | (i, k) :: rest, b => do
    let b' ← b.store i (mag k)
    runStores mag rest b'

/-- frequency.cpp line 32 and frequency_cpu_impl.cpp lines 20-52: allocate `N` floats (with
indeterminate content `junk`) and fill them. -/
def shiftMagSquare (mag : Nat → F) (n : Nat) (junk : Int → F) : Outcome (Buf F) :=
  runStores mag (stores n) (Buf.ofFn n junk)

/-! ## Specification -/

/-- The full power spectrum `P 0 … P (n-1)` of a real input of length `n` is what the first half
`mag` determines: equal on the first half and symmetric. -/
structure Spectrum (mag P : Nat → F) (n : Nat) : Prop where
  first : ∀ i, i < halfN n → i < n → P i = mag i
  symm : ∀ i, 0 < i → i < n → P (n - i) = P i

/-- The bin that belongs at position `k` of the shifted spectrum: zero frequency sits in the
middle, at `n/2`. -/
def shiftedBin (n k : Nat) : Nat := (k + n - n / 2) % n

/-! ## Proofs -/

theorem dcIndex_odd {m : Nat} (h : m ≤ 2 ^ 24) : dcIndex (2 * m + 1) = m := by
  unfold dcIndex
  have h1 : ((2 * m + 1 : Nat) : ℚ) - 1 = ((m : ℤ) : ℚ) * 2 ^ (1 : ℤ) := by
    push_cast; ring
  rw [h1, rne_exact (by norm_num) _ _ (by
    rw [abs_of_nonneg (by omega)]; exact_mod_cast h)]
  rw [zpow_one, mul_div_assoc, div_self (by norm_num), mul_one]
  exact Int.ceil_intCast _

theorem runStores_ok (mag : Nat → F) : ∀ (l : List (Int × Nat)) (b : Buf F),
    (∀ p ∈ l, (b p.1).isSome) → (l.map Prod.fst).Nodup →
    ∃ b', runStores mag l b = .ok b' ∧ (∀ p ∈ l, b' p.1 = some (mag p.2)) ∧
      (∀ i, i ∉ l.map Prod.fst → b' i = b i)
  | [], b, _, _ => ⟨b, rfl, by simp, by simp⟩
  | (i, k) :: rest, b, hin, hnd => by
    obtain ⟨a, ha⟩ := Option.isSome_iff_exists.1 (hin (i, k) (by simp))
    simp only [List.map_cons, List.nodup_cons] at hnd
    obtain ⟨b', h1, h2, h3⟩ := runStores_ok mag rest (fun j => if j = i then some (mag k) else b j)
      (fun p hp => by
        by_cases hpi : p.1 = i
        · simp [hpi]
        · simp only [hpi, if_false]; exact hin p (by simp [hp])) hnd.2
    refine ⟨b', by simp only [runStores, Buf.store_some ha, Outcome.bind_ok, h1], ?_, ?_⟩
    · intro p hp
      rcases List.mem_cons.1 hp with rfl | hp
      · rw [h3 _ hnd.1]; simp
      · exact h2 p hp
    · intro j hj
      simp only [List.map_cons, List.mem_cons, not_or] at hj
      rw [h3 j hj.2]; simp [hj.1]

/-- A list of stores one of which lies outside the allocation is undefined. -/
theorem runStores_ub (mag : Nat → F) : ∀ (l : List (Int × Nat)) (b : Buf F) (p : Int × Nat),
    p ∈ l → b p.1 = none → runStores mag l b = .ub
  | (i, k) :: rest, b, p, hp, hb => by
    simp only [runStores]
    cases hbi : b i with
    | none => rw [Buf.store_none hbi]; rfl
    | some a =>
      rw [Buf.store_some hbi, Outcome.bind_ok]
      rcases List.mem_cons.1 hp with rfl | hp
      · simp_all
      · refine runStores_ub mag rest _ p hp ?_
        have : p.1 ≠ i := by intro h; rw [h] at hb; simp_all
        simp [this, hb]

theorem mem_stores {n : Nat} {p : Int × Nat} :
    p ∈ stores n ↔ p.2 < halfN n ∧ (p.1 = dcIndex n + p.2 ∨ (p.2 ≠ 0 ∧ p.1 = dcIndex n - p.2)) := by
  obtain ⟨i, k⟩ := p
  simp only [stores, List.mem_flatMap, List.mem_range]
  constructor
  · rintro ⟨j, hj, hm⟩
    split at hm
    · simp at hm; obtain ⟨rfl, rfl⟩ := hm; simp_all
    · simp at hm
      rcases hm with ⟨rfl, rfl⟩ | ⟨rfl, rfl⟩ <;> simp_all
  · rintro ⟨hk, h | ⟨h0, h⟩⟩
    · refine ⟨k, hk, ?_⟩
      split <;> simp_all
    · refine ⟨k, hk, ?_⟩
      simp_all

theorem stores_nodup (n : Nat) : ((stores n).map Prod.fst).Nodup := by
  unfold stores
  generalize halfN n = h
  generalize dcIndex n = d
  induction h with
  | zero => simp
  | succ h ih =>
    rw [List.range_succ, List.flatMap_append, List.map_append]
    rw [List.nodup_append]
    refine ⟨ih, ?_, ?_⟩
    · by_cases h0 : h = 0
      · simp [h0]
      · simp only [List.flatMap_cons, List.flatMap_nil, h0, if_false, List.append_nil,
          List.map_cons, List.map_nil]
        simp; omega
    · intro a ha b hb hab
      subst hab
      simp only [List.mem_map, List.mem_flatMap, List.mem_range] at ha
      obtain ⟨p, ⟨j, hj, hp⟩, rfl⟩ := ha
      have h1 : p.1 = d + j ∨ p.1 = d - j := by
        split at hp <;> simp at hp
        · left; rw [hp]
        · rcases hp with hp | hp <;> rw [hp] <;> simp
      have h2 : p.1 = d + h ∨ p.1 = d - h := by
        simp only [List.flatMap_cons, List.flatMap_nil, List.append_nil] at hb
        split at hb <;> simp at hb
        · left; rw [hb]
        · rcases hb with hb | hb <;> rw [hb] <;> simp
      omega

/-- **C59**, odd lengths (up to the lengths whose middle a 32-bit float holds exactly): the
function succeeds; every output bin is written exactly once, none outside the buffer, and bin `k`
holds the squared magnitude of the bin that the shift moves there. Missing: even lengths, where
the property fails (`C59_even_overflows`), and odd lengths beyond `2^25 + 1`, where it fails for
some (`C59_long_overflows`). -/
theorem C59_fft_shift_partial {mag P : Nat → F} {n : Nat} (hodd : n % 2 = 1) (hn : n ≤ 2 ^ 25 + 1)
    (hP : Spectrum mag P n) (junk : Int → F) :
    ((stores n).map Prod.fst).Perm ((List.range n).map Int.ofNat) ∧
    ∃ out, shiftMagSquare mag n junk = .ok out ∧
      ∀ k, k < n → out k = some (P (shiftedBin n k)) := by
  obtain ⟨m, rfl⟩ : ∃ m, n = 2 * m + 1 := ⟨n / 2, by omega⟩
  have hm : m ≤ 2 ^ 24 := by omega
  have hdc := dcIndex_odd hm
  have hhalf : halfN (2 * m + 1) = m + 1 := by unfold halfN; omega
  constructor
  · rw [List.perm_ext_iff_of_nodup (stores_nodup _)]
    · intro a
      simp only [List.mem_map, mem_stores, List.mem_range, hdc, hhalf]
      constructor
      · rintro ⟨p, ⟨h1, h2⟩, rfl⟩
        refine ⟨p.1.toNat, by omega, ?_⟩
        simp only [Int.ofNat_eq_natCast]; omega
      · rintro ⟨k, hk, rfl⟩
        simp only [Int.ofNat_eq_natCast]
        by_cases h : m ≤ k
        · exact ⟨((k : Int), k - m), ⟨by simp only []; omega, Or.inl (by simp only []; omega)⟩, rfl⟩
        · exact ⟨((k : Int), m - k), ⟨by simp only []; omega,
            Or.inr ⟨by simp only []; omega, by simp only []; omega⟩⟩, rfl⟩
    · exact List.nodup_range.map (fun a b h => by simpa using h)
  · obtain ⟨b', h1, h2, _⟩ := runStores_ok mag (stores (2 * m + 1))
      (Buf.ofFn ((2 * m + 1 : Nat) : Int) junk) (fun p hp => by
        rw [mem_stores, hdc, hhalf] at hp
        simp only [Buf.ofFn]
        rw [if_pos (by omega)]; rfl) (stores_nodup _)
    refine ⟨b', h1, fun k hk => ?_⟩
    by_cases h : m ≤ k
    · have := h2 ((k : Int), k - m) (by
        rw [mem_stores, hdc, hhalf]; exact ⟨by simp only []; omega, Or.inl (by simp only []; omega)⟩)
      rw [this]
      have hb : shiftedBin (2 * m + 1) k = k - m := by
        unfold shiftedBin
        rw [show (k + (2 * m + 1) - (2 * m + 1) / 2) = (k - m) + (2 * m + 1) by omega,
          Nat.add_mod_right, Nat.mod_eq_of_lt (by omega)]
      rw [hb, hP.first _ (by omega) (by omega)]
    · have := h2 ((k : Int), m - k) (by
        rw [mem_stores, hdc, hhalf]
        exact ⟨by simp only []; omega, Or.inr ⟨by simp only []; omega, by simp only []; omega⟩⟩)
      rw [this]
      have hb : shiftedBin (2 * m + 1) k = (2 * m + 1) - (m - k) := by
        unfold shiftedBin
        rw [Nat.mod_eq_of_lt (by omega)]; omega
      rw [hb, hP.symm _ (by omega) (by omega), hP.first _ (by omega) (by omega)]

/-- The smallest and largest index the loop writes are `N/2` away from the middle on either side,
so an even length needs one element more than there is. -/
theorem stores_span {n : Nat} (h : 2 ≤ n) :
    (dcIndex n + (n / 2 : Nat), n / 2) ∈ stores n ∧ (dcIndex n - (n / 2 : Nat), n / 2) ∈ stores n :=
  ⟨mem_stores.2 ⟨by simp only [halfN]; omega, Or.inl rfl⟩,
   mem_stores.2 ⟨by simp only [halfN]; omega, Or.inr ⟨by simp only []; omega, rfl⟩⟩⟩

/-- **C59** fails for every even length, whatever the data: the function stores outside its output
buffer. -/
theorem C59_even_overflows (mag : Nat → F) (n : Nat) (h : n % 2 = 0) (junk : Int → F) :
    shiftMagSquare mag n junk = .ub := by
  rcases Nat.eq_zero_or_pos n with rfl | hpos
  · refine runStores_ub mag _ _ (dcIndex 0 + 0, 0) (mem_stores.2 ⟨by simp [halfN], Or.inl rfl⟩) ?_
    simp only [Buf.ofFn]; rw [if_neg (by omega)]
  · obtain ⟨ha, hb⟩ := stores_span (n := n) (by omega)
    by_cases hd : dcIndex n + (n / 2 : Nat) < n
    · refine runStores_ub mag _ _ _ hb ?_
      simp only [Buf.ofFn]; rw [if_neg (by omega)]
    · refine runStores_ub mag _ _ _ ha ?_
      simp only [Buf.ofFn]; rw [if_neg (by omega)]

/-- **C59** also fails for the odd length `2^25 + 3`: the middle is computed in a 32-bit float and
is off by one. -/
theorem C59_long_overflows (mag : Nat → F) (junk : Int → F) :
    shiftMagSquare mag (2 ^ 25 + 3) junk = .ub := by
  have hd : dcIndex (2 ^ 25 + 3) ≠ 2 ^ 24 + 1 := by
    unfold dcIndex; decide +kernel
  obtain ⟨ha, hb⟩ := stores_span (n := 2 ^ 25 + 3) (by norm_num)
  by_cases hlt : dcIndex (2 ^ 25 + 3) < 2 ^ 24 + 1
  · refine runStores_ub mag _ _ _ hb ?_
    simp only [Buf.ofFn]; rw [if_neg (by omega)]
  · refine runStores_ub mag _ _ _ ha ?_
    simp only [Buf.ofFn]; rw [if_neg (by omega)]

/-- Concrete case for `C59_fft_shift_partial`: a five-point spectrum. -/
example : Spectrum (fun i => [7, 8, 9].getD i 0) (fun i => [7, 8, 9, 9, 8].getD i 0) 5 ∧
    (List.range 5).map (shiftedBin 5) = [3, 4, 0, 1, 2] := by
  refine ⟨⟨?_, ?_⟩, by decide⟩
  · intro i h _
    have : i < 3 := by simpa [halfN] using h
    interval_cases i <;> rfl
  · intro i h0 h5
    interval_cases i <;> rfl

end Bliss.Fft
