import Verif.Base
import Verif.Float.Rounding
import Verif.Misc.Types
import Verif.File.Props
import Mathlib.Data.Int.Bitwise
import Mathlib.Tactic.IntervalCases

/-!
# Element arithmetic between data types (C92)

`bland/bland/ops/cpu/arithmetic_cpu_impl.hpp` lines 11-50 and
`bland/bland/ops/cpu/comparison_cpu_impl.hpp` lines 9-54: what `a + b`, `a - b`, `a * b`, `a / b`,
the comparisons and `logical_and` compute for one pair of elements of the data types the dispatcher
knows (`bland/bland/internal/include/internal/dispatcher.hpp` lines 61-206). The functions are C++
expressions on built-in types, so the model is that of C++: promotion of small integers, conversion
to a common type, the operation, and a cast to the type of the result.

How elements are paired up is C47 and C48. Values are rationals: finite floats (24 significant bits,
unbounded exponent) and integers.
-/

namespace Bliss.Types

open Bliss.Float

/-- The element types that operations are compiled for. -/
inductive Ty
  | f32 | i32 | u8 | u32
  deriving DecidableEq, Repr

/-- dispatcher.hpp lines 62-107, 110-155 and 161-206: the switch on code and width. The number of
lanes is not looked at. -/
def supported (d : Dtype) : Outcome Ty :=
  match d.code, d.bits with
  | .float, 32 => .ok .f32
  | .int, 32 => .ok .i32
  | .uint, 8 => .ok .u8
  | .uint, 32 => .ok .u32
  | _, _ => .throws .runtimeError

/-- Smallest value of an integer type. -/
def Ty.lo : Ty → Int
  | .i32 => -2 ^ 31
  | _ => 0

/-- Number of values of an integer type. -/
def Ty.size : Ty → Int
  | .u8 => 2 ^ 8
  | _ => 2 ^ 32

/-- Truncation towards zero. -/
def truncZ (x : ℚ) : Int := if x < 0 then -⌊-x⌋ else ⌊x⌋

/-- The value congruent to `n` in the range of an integer type. -/
def wrap (t : Ty) (n : Int) : Int := (n - t.lo) % t.size + t.lo

/-- Does an integer lie in the range of an integer type? -/
def inRange (t : Ty) (n : Int) : Bool := decide (t.lo ≤ n ∧ n < t.lo + t.size)

/-- Conversion of a value of type `src` to type `dst`: to a float it rounds to nearest; between
integers it wraps (for a signed target this is what compilers define and what C++20 requires); from
a float to an integer it truncates, and is undefined out of range. -/
def convert (src dst : Ty) (x : ℚ) : Outcome ℚ :=
  match dst with
  | .f32 => .ok (rne 24 x)
  | _ =>
    if src = .f32 then
      if inRange dst (truncZ x) then .ok (truncZ x) else .ub
    else .ok (wrap dst ⌊x⌋)

/-- The usual arithmetic conversions; `uint8_t` is promoted to `int` first. -/
def common : Ty → Ty → Ty
  | .f32, _ => .f32
  | _, .f32 => .f32
  | .u32, _ => .u32
  | _, .u32 => .u32
  | _, _ => .i32

/-- The four operations. -/
inductive Op
  | add | sub | mul | div
  deriving DecidableEq, Repr

/-- The mathematical result. -/
def Op.exact : Op → ℚ → ℚ → ℚ
  | .add, x, y => x + y
  | .sub, x, y => x - y
  | .mul, x, y => x * y
  | .div, x, y => x / y

/-- An operation in the common type: floats round (`inf` stands for what a division by zero gives);
`int` overflow is undefined, as is integer division by zero; `unsigned` wraps. -/
def compute (inf : ℚ → ℚ) (op : Op) (c : Ty) (x y : ℚ) : Outcome ℚ :=
  match c with
  | .f32 => if op = .div ∧ y = 0 then .ok (inf x) else .ok (rne 24 (op.exact x y))
  | _ =>
    if op = .div ∧ y = 0 then .ub
    else
      let n := truncZ (op.exact x y)
      if c = .i32 then if inRange .i32 n then .ok n else .ub
      else .ok (wrap c n)

/-- arithmetic_cpu_impl.hpp lines 11-50: `static_cast<Out>(a op b)`. `Out` is the type of the left
operand (arithmetic_cpu.cpp lines 25, 37, 48, 60; arithmetic_scalar_cpu.cpp lines 22, 40, 58). -/
def arith (inf : ℚ → ℚ) (op : Op) (a b : Ty) (x y : ℚ) : Outcome ℚ := do
  let x' ← convert a (common a b) x
  let y' ← convert b (common a b) y
  let r ← compute inf op (common a b) x' y'
  convert (common a b) a r

/-- The five comparisons. -/
inductive Rel
  | gt | ge | lt | le | eq
  deriving DecidableEq, Repr

/-- The mathematical relation. -/
def Rel.holds : Rel → ℚ → ℚ → Prop
  | .gt, x, y => x > y
  | .ge, x, y => x ≥ y
  | .lt, x, y => x < y
  | .le, x, y => x ≤ y
  | .eq, x, y => x = y

instance (r : Rel) (x y : ℚ) : Decidable (r.holds x y) := by
  cases r <;> unfold Rel.holds <;> infer_instance

/-- comparison_cpu_impl.hpp lines 9-42: `static_cast<uint8_t>(a rel b)`. -/
def compare (r : Rel) (a b : Ty) (x y : ℚ) : Outcome Nat := do
  let x' ← convert a (common a b) x
  let y' ← convert b (common a b) y
  pure (if r.holds x' y' then 1 else 0)

/-- comparison_cpu_impl.hpp lines 44-54: the bits of both operands in the common type, cast to
`uint8_t`; throws for floats. -/
def logicalAnd (a b : Ty) (x y : ℚ) : Outcome Nat :=
  if a = .f32 ∨ b = .f32 then .throws .runtimeError
  else do
    let x' ← convert a (common a b) x
    let y' ← convert b (common a b) y
    pure (wrap .u8 (Int.land ⌊x'⌋ ⌊y'⌋)).toNat

/-! ## Specification -/

/-- `x` is a value of type `t`. -/
def Ty.Holds : Ty → ℚ → Prop
  | .f32, x => rne 24 x = x
  | .i32, x => ∃ n : Int, x = n ∧ -2147483648 ≤ n ∧ n ≤ 2147483647
  | .u8, x => ∃ n : Int, x = n ∧ 0 ≤ n ∧ n ≤ 255
  | .u32, x => ∃ n : Int, x = n ∧ 0 ≤ n ∧ n ≤ 4294967295

/-- An integer type. -/
def Ty.IsInt (t : Ty) : Prop := t ≠ .f32

instance (t : Ty) : Decidable t.IsInt := by unfold Ty.IsInt; infer_instance

/-- A negative number meets `uint32`: the conversion to the common type changes its value. -/
def SignMix (a b : Ty) (x y : ℚ) : Prop :=
  (b = .u32 ∧ x < 0) ∨ (a = .u32 ∧ y < 0)

/-! ## Proofs -/

theorem truncZ_int (n : Int) : truncZ (n : ℚ) = n := by
  unfold truncZ
  split
  · rw [← Int.cast_neg, Int.floor_intCast, neg_neg]
  · exact Int.floor_intCast n

theorem holds_int {t : Ty} (ht : t.IsInt) {x : ℚ} (h : t.Holds x) :
    ∃ n : Int, x = n ∧ t.lo ≤ n ∧ n < t.lo + t.size := by
  cases t
  · exact absurd rfl ht
  all_goals
    obtain ⟨n, rfl, h1, h2⟩ := h
    refine ⟨n, rfl, ?_, ?_⟩ <;> simp only [Ty.lo, Ty.size] <;> omega

theorem holds_of_range {t : Ty} (ht : t.IsInt) {n : Int} (h1 : t.lo ≤ n) (h2 : n < t.lo + t.size) :
    t.Holds (n : ℚ) := by
  cases t
  · exact absurd rfl ht
  all_goals
    simp only [Ty.lo, Ty.size] at h1 h2
    exact ⟨n, rfl, by omega, by omega⟩

theorem wrap_eq {t : Ty} {n : Int} (h1 : t.lo ≤ n) (h2 : n < t.lo + t.size) : wrap t n = n := by
  unfold wrap
  rw [Int.emod_eq_of_lt (by omega) (by omega)]; omega

theorem wrap_congr (t : Ty) {m n : Int} (h : t.size ∣ m - n) : wrap t m = wrap t n := by
  unfold wrap
  rw [Int.emod_eq_emod_iff_emod_sub_eq_zero.2]
  rw [show m - t.lo - (n - t.lo) = m - n by ring]
  exact Int.emod_eq_zero_of_dvd h

theorem wrap_dvd (t : Ty) (n : Int) : t.size ∣ wrap t n - n := by
  unfold wrap
  have := Int.emod_add_mul_ediv (n - t.lo) t.size
  exact ⟨-((n - t.lo) / t.size), by linarith⟩

theorem common_int {a b : Ty} (ha : a.IsInt) (hb : b.IsInt) : (common a b).IsInt := by
  cases a <;> cases b <;> simp_all [common, Ty.IsInt]

theorem size_dvd (a c : Ty) (h : a = .u8 ∨ c ≠ .u8) : a.size ∣ c.size := by
  cases a <;> cases c <;> simp_all [Ty.size]

theorem common_ne_u8 (a b : Ty) : common a b ≠ .u8 := by
  cases a <;> cases b <;> simp [common]

theorem convert_int {s t : Ty} (hs : s.IsInt) (ht : t.IsInt) (n : Int) :
    convert s t (n : ℚ) = .ok ((wrap t n : Int) : ℚ) := by
  cases t
  · exact absurd rfl ht
  all_goals
    simp only [convert, if_neg hs, Int.floor_intCast]

theorem convert_common {a b : Ty} (ha : a.IsInt) (hb : b.IsInt) {m : Int}
    (h1 : a.lo ≤ m) (h2 : m < a.lo + a.size) (h3 : ¬ (b = .u32 ∧ m < 0)) :
    convert a (common a b) (m : ℚ) = .ok ((m : Int) : ℚ) := by
  rw [convert_int ha (common_int ha hb), wrap_eq]
  · cases a <;> cases b <;> simp_all [common, Ty.lo, Ty.size, Ty.IsInt]
    all_goals omega
  · cases a <;> cases b <;> simp_all [common, Ty.lo, Ty.size, Ty.IsInt]
    all_goals omega

theorem common_comm (a b : Ty) : common a b = common b a := by
  cases a <;> cases b <;> rfl

/-- The exact sum, difference or product of two integers. -/
theorem exact_int {op : Op} (ho : op ≠ .div) (m n : Int) :
    ∃ k : Int, op.exact (m : ℚ) (n : ℚ) = (k : ℚ) ∧
      ∀ (m' n' s : Int), s ∣ m' - m → s ∣ n' - n →
        ∃ k' : Int, op.exact (m' : ℚ) (n' : ℚ) = (k' : ℚ) ∧ s ∣ k' - k := by
  cases op
  · refine ⟨m + n, by simp [Op.exact], fun m' n' s h1 h2 => ⟨m' + n', by simp [Op.exact], ?_⟩⟩
    rw [show m' + n' - (m + n) = (m' - m) + (n' - n) by ring]; exact dvd_add h1 h2
  · refine ⟨m - n, by simp [Op.exact], fun m' n' s h1 h2 => ⟨m' - n', by simp [Op.exact], ?_⟩⟩
    rw [show m' - n' - (m - n) = (m' - m) - (n' - n) by ring]; exact dvd_sub h1 h2
  · refine ⟨m * n, by simp [Op.exact], fun m' n' s h1 h2 => ⟨m' * n', by simp [Op.exact], ?_⟩⟩
    rw [show m' * n' - m * n = (m' - m) * n' + m * (n' - n) by ring]
    exact dvd_add (Dvd.dvd.mul_right h1 _) (Dvd.dvd.mul_left h2 _)
  · exact absurd rfl ho

theorem compute_i32 (inf : ℚ → ℚ) (op : Op) (x y : ℚ) : compute inf op .i32 x y =
    if op = .div ∧ y = 0 then .ub
    else if inRange .i32 (truncZ (op.exact x y)) then .ok (truncZ (op.exact x y)) else .ub := by
  simp [compute]

theorem compute_u32 (inf : ℚ → ℚ) (op : Op) (x y : ℚ) : compute inf op .u32 x y =
    if op = .div ∧ y = 0 then .ub else .ok ((wrap .u32 (truncZ (op.exact x y)) : Int) : ℚ) := by
  simp [compute]

theorem range_wrap (t : Ty) (n : Int) : t.lo ≤ wrap t n ∧ wrap t n < t.lo + t.size := by
  have hs : 0 < t.size := by cases t <;> simp [Ty.size]
  unfold wrap
  have h1 := Int.emod_nonneg (n - t.lo) hs.ne'
  have h2 := Int.emod_lt_of_pos (n - t.lo) hs
  constructor <;> omega

/-- **C92 (integers).** Sums, differences and products of integer elements are exact whenever the
exact result is a value of the left operand's type, whatever the two types. -/
theorem C92_integers_exact (inf : ℚ → ℚ) {op : Op} (ho : op ≠ .div) {a b : Ty} (ha : a.IsInt)
    (hb : b.IsInt) {x y : ℚ} (hx : a.Holds x) (hy : b.Holds y) (hr : a.Holds (op.exact x y)) :
    arith inf op a b x y = .ok (op.exact x y) := by
  obtain ⟨m, rfl, m1, m2⟩ := holds_int ha hx
  obtain ⟨n, rfl, n1, n2⟩ := holds_int hb hy
  obtain ⟨k, hk, hall⟩ := exact_int ho m n
  rw [hk] at hr ⊢
  obtain ⟨k0, e, k1, k2⟩ := holds_int ha hr
  obtain rfl : k = k0 := by exact_mod_cast e
  have hc := common_int ha hb
  obtain ⟨k', hk', hd⟩ := hall _ _ _ (wrap_dvd (common a b) m) (wrap_dvd (common a b) n)
  have hdiv : a.size ∣ (common a b).size := size_dvd _ _ (Or.inr (common_ne_u8 a b))
  have hfin : ∀ z : Int, (common a b).size ∣ z - k → wrap a z = k := by
    intro z hz
    rw [wrap_congr a (dvd_trans hdiv hz), wrap_eq k1 k2]
  rw [arith, convert_int ha hc, convert_int hb hc, Outcome.bind_ok, Outcome.bind_ok]
  generalize hcc : common a b = c at *
  cases c
  · exact absurd rfl hc
  · -- `int`: both operands and the result fit
    have hab : (a = .i32 ∨ a = .u8) ∧ (b = .i32 ∨ b = .u8) := by
      cases a <;> cases b <;> simp_all [common]
    have hw1 : wrap .i32 m = m := by
      apply wrap_eq <;> rcases hab.1 with rfl | rfl <;> simp only [Ty.lo, Ty.size] at * <;> omega
    have hw2 : wrap .i32 n = n := by
      apply wrap_eq <;> rcases hab.2 with rfl | rfl <;> simp only [Ty.lo, Ty.size] at * <;> omega
    have hin : inRange .i32 k = true := by
      simp only [inRange, decide_eq_true_eq]
      rcases hab.1 with rfl | rfl <;> simp only [Ty.lo, Ty.size] at * <;> omega
    rw [hw1, hw2, compute_i32, if_neg (fun h => ho h.1), hk]
    simp only [truncZ_int, hin, if_true, Outcome.bind_ok]
    rw [convert_int hc ha, hfin k (by simp)]
  · exact absurd hcc (common_ne_u8 a b)
  · rw [compute_u32, if_neg (fun h => ho h.1), hk']
    simp only [truncZ_int, Outcome.bind_ok]
    rw [convert_int hc ha, hfin]
    have h1 := wrap_dvd .u32 k'
    rw [show wrap Ty.u32 k' - k = (wrap Ty.u32 k' - k') + (k' - k) by ring]
    exact dvd_add h1 hd

/-- **C92 (integers, in general).** Outside the range of the left operand's type, the result of a
sum, difference or product is the congruent value of that type; the operation is undefined exactly
when it is carried out in `int` and overflows there. -/
theorem C92_integers_wrap (inf : ℚ → ℚ) {op : Op} (ho : op ≠ .div) {a b : Ty} (ha : a.IsInt)
    (hb : b.IsInt) {x y : ℚ} (hx : a.Holds x) (hy : b.Holds y) :
    (a ≠ .u32 ∧ b ≠ .u32 ∧ ¬ (-2147483648 ≤ op.exact x y ∧ op.exact x y ≤ 2147483647) ∧
      arith inf op a b x y = .ub) ∨
    (∃ r : ℚ, arith inf op a b x y = .ok r ∧ a.Holds r ∧
      ∃ j : Int, r = op.exact x y + j * a.size) := by
  obtain ⟨m, rfl, m1, m2⟩ := holds_int ha hx
  obtain ⟨n, rfl, n1, n2⟩ := holds_int hb hy
  obtain ⟨k, hk, hall⟩ := exact_int ho m n
  rw [hk]
  have hc := common_int ha hb
  obtain ⟨k', hk', hd⟩ := hall _ _ _ (wrap_dvd (common a b) m) (wrap_dvd (common a b) n)
  have hdiv : a.size ∣ (common a b).size := size_dvd _ _ (Or.inr (common_ne_u8 a b))
  have hfin : ∀ z : Int, (common a b).size ∣ z - k →
      a.Holds ((wrap a z : Int) : ℚ) ∧ ∃ j : Int, ((wrap a z : Int) : ℚ) = (k : ℚ) + j * a.size := by
    intro z hz
    refine ⟨holds_of_range ha (range_wrap a z).1 (range_wrap a z).2, ?_⟩
    obtain ⟨j, hj⟩ := dvd_add (wrap_dvd a z) (dvd_trans hdiv hz)
    refine ⟨j, ?_⟩
    have : wrap a z = k + j * a.size := by linarith
    exact_mod_cast this
  rw [arith, convert_int ha hc, convert_int hb hc, Outcome.bind_ok, Outcome.bind_ok]
  generalize hcc : common a b = c at *
  cases c
  · exact absurd rfl hc
  · have hab : (a = .i32 ∨ a = .u8) ∧ (b = .i32 ∨ b = .u8) := by
      cases a <;> cases b <;> simp_all [common]
    have hw1 : wrap .i32 m = m := by
      apply wrap_eq <;> rcases hab.1 with rfl | rfl <;> simp only [Ty.lo, Ty.size] at * <;> omega
    have hw2 : wrap .i32 n = n := by
      apply wrap_eq <;> rcases hab.2 with rfl | rfl <;> simp only [Ty.lo, Ty.size] at * <;> omega
    rw [hw1, hw2, compute_i32, if_neg (fun h => ho h.1), hk]
    simp only [truncZ_int, if_true]
    by_cases hin : inRange .i32 k = true
    · right
      simp only [hin, if_true, Outcome.bind_ok]
      rw [convert_int hc ha]
      exact ⟨_, rfl, hfin k (by simp)⟩
    · left
      refine ⟨by rcases hab.1 with rfl | rfl <;> simp, by rcases hab.2 with rfl | rfl <;> simp, ?_,
        by simp only [hin]; rfl⟩
      rintro ⟨h1, h2⟩
      apply hin
      simp only [inRange, decide_eq_true_eq]
      show (-2 ^ 31 : Int) ≤ k ∧ k < -2 ^ 31 + 2 ^ 32
      have h1' : (-2147483648 : Int) ≤ k := by exact_mod_cast h1
      have h2' : k ≤ (2147483647 : Int) := by exact_mod_cast h2
      omega
  · exact absurd hcc (common_ne_u8 a b)
  · right
    rw [compute_u32, if_neg (fun h => ho h.1), hk']
    simp only [truncZ_int, Outcome.bind_ok]
    rw [convert_int hc ha]
    refine ⟨_, rfl, hfin _ ?_⟩
    have h1 := wrap_dvd .u32 k'
    rw [show wrap Ty.u32 k' - k = (wrap Ty.u32 k' - k') + (k' - k) by ring]
    exact dvd_add h1 hd

theorem truncZ_div (m n : Int) : truncZ ((m : ℚ) / n) = m.tdiv n := by
  unfold truncZ
  rcases eq_or_ne n 0 with rfl | hn
  · simp
  have key : ∀ m n : Int, 0 ≤ m → 0 < n → ⌊(m : ℚ) / n⌋ = m.tdiv n := by
    intro m n hm hn
    rw [Int.tdiv_eq_ediv_of_nonneg hm, Int.floor_eq_iff]
    have hq : (0 : ℚ) < n := by exact_mod_cast hn
    constructor
    · rw [le_div_iff₀ hq]
      exact_mod_cast Int.ediv_mul_le m hn.ne'
    · rw [div_lt_iff₀ hq]
      exact_mod_cast Int.lt_ediv_add_one_mul_self m hn
  rcases lt_or_gt_of_ne hn with hneg | hpos
  · rcases lt_or_ge m 0 with hm | hm
    · have h0 : (0 : ℚ) ≤ (m : ℚ) / n := by
        apply div_nonneg_of_nonpos <;> exact_mod_cast (by omega)
      rw [if_neg (by linarith)]
      rw [show (m : ℚ) / n = ((-m : Int) : ℚ) / ((-n : Int) : ℚ) by push_cast; rw [neg_div_neg_eq]]
      rw [key _ _ (by omega) (by omega), Int.neg_tdiv, Int.tdiv_neg, neg_neg]
    · rcases eq_or_lt_of_le hm with rfl | hm
      · simp
      have h0 : (m : ℚ) / n < 0 := by
        apply div_neg_of_pos_of_neg <;> exact_mod_cast (by omega)
      rw [if_pos h0]
      rw [show -((m : ℚ) / n) = (m : ℚ) / ((-n : Int) : ℚ) by push_cast; rw [div_neg]]
      rw [key _ _ (by omega) (by omega), Int.tdiv_neg, neg_neg]
  · rcases lt_or_ge m 0 with hm | hm
    · have h0 : (m : ℚ) / n < 0 := by
        apply div_neg_of_neg_of_pos <;> exact_mod_cast (by omega)
      rw [if_pos h0]
      rw [show -((m : ℚ) / n) = ((-m : Int) : ℚ) / (n : ℚ) by push_cast; rw [neg_div]]
      rw [key _ _ (by omega) (by omega), Int.neg_tdiv, neg_neg]
    · have h0 : (0 : ℚ) ≤ (m : ℚ) / n := by
        apply div_nonneg <;> exact_mod_cast (by omega)
      rw [if_neg (by linarith), key _ _ hm hpos]

/-- **C92 (integer division).** The quotient rounded towards zero, when it is a value of the left
operand's type. Missing: a negative number divided by or dividing a `uint32`, where the result is
wrong (`C92_mixed_signs_divide`). -/
theorem C92_integer_division_partial (inf : ℚ → ℚ) {a b : Ty} (ha : a.IsInt) (hb : b.IsInt)
    {m n : Int} (hx : a.Holds m) (hy : b.Holds n) (hn : n ≠ 0) (hs : ¬ SignMix a b m n)
    (hr : a.Holds (m.tdiv n : Int)) :
    arith inf .div a b m n = .ok ((m.tdiv n : Int) : ℚ) := by
  obtain ⟨m0, e, m1, m2⟩ := holds_int ha hx
  obtain rfl : m = m0 := by exact_mod_cast e
  obtain ⟨n0, e, n1, n2⟩ := holds_int hb hy
  obtain rfl : n = n0 := by exact_mod_cast e
  obtain ⟨k0, e, k1, k2⟩ := holds_int ha hr
  have e' : m.tdiv n = k0 := by exact_mod_cast e
  rw [← e'] at k1 k2
  have hc := common_int ha hb
  unfold SignMix at hs
  push Not at hs
  rw [arith, convert_common ha hb m1 m2 (fun h => by
      have := hs.1 h.1
      have : (0 : Int) ≤ m := by exact_mod_cast this
      omega),
    common_comm a b, convert_common hb ha n1 n2 (fun h => by
      have := hs.2 h.1
      have : (0 : Int) ≤ n := by exact_mod_cast this
      omega), common_comm b a]
  simp only [Outcome.bind_ok]
  have hw : wrap a (m.tdiv n) = m.tdiv n := wrap_eq k1 k2
  have hn' : ¬ ((n : ℚ) = 0) := by exact_mod_cast hn
  generalize hcc : common a b = c at *
  cases c
  · exact absurd rfl hc
  · have hab : a = .i32 ∨ a = .u8 := by
      cases a <;> cases b <;> simp_all [common]
    have hin : inRange .i32 (m.tdiv n) = true := by
      simp only [inRange, decide_eq_true_eq]
      rcases hab with rfl | rfl <;> simp only [Ty.lo, Ty.size] at * <;> omega
    rw [compute_i32, if_neg (fun h => hn' h.2)]
    simp only [Op.exact, truncZ_div, hin, if_true, Outcome.bind_ok]
    rw [convert_int hc ha, hw]
  · exact absurd hcc (common_ne_u8 a b)
  · have hab : a = .u32 ∨ b = .u32 := by
      cases a <;> cases b <;> simp_all [common]
    rw [compute_u32, if_neg (fun h => hn' h.2)]
    simp only [Op.exact, truncZ_div, Outcome.bind_ok]
    rw [convert_int hc ha]
    have h2 : a.size ∣ Ty.u32.size := size_dvd _ _ (Or.inr (by simp))
    rw [wrap_congr a (dvd_trans h2 (wrap_dvd .u32 (m.tdiv n))), hw]

/-- **C92 (floats).** With a float on the left and an operand on the right that a float can hold, the
result is the exact one rounded once to nearest. -/
theorem C92_float_rounded_once (inf : ℚ → ℚ) (op : Op) {b : Ty} {x y : ℚ} (hx : Ty.f32.Holds x)
    (hy : Ty.f32.Holds y) (h0 : op = .div → y ≠ 0) :
    arith inf op .f32 b x y = .ok (rne 24 (op.exact x y)) := by
  have hx' : rne 24 x = x := hx
  have hy' : rne 24 y = y := hy
  simp only [arith, common, convert, hx', hy', Outcome.bind_ok, compute]
  rw [if_neg (fun h => h0 h.1 h.2), Outcome.bind_ok, Bliss.File.rne_idem]

/-- **C92 (float on the right).** With an integer on the left that a float can hold and a float on
the right, the result is the exact one rounded to nearest and then cut off towards zero, if that is
in the range of the integer type; otherwise the operation is undefined. -/
theorem C92_float_truncated (inf : ℚ → ℚ) (op : Op) {a : Ty} (ha : a.IsInt) {x y : ℚ}
    (hx : Ty.f32.Holds x) (hy : Ty.f32.Holds y) (h0 : op = .div → y ≠ 0) :
    (a.Holds (truncZ (rne 24 (op.exact x y)) : Int) ∧
      arith inf op a .f32 x y = .ok (truncZ (rne 24 (op.exact x y)) : Int)) ∨
    (¬ a.Holds (truncZ (rne 24 (op.exact x y)) : Int) ∧ arith inf op a .f32 x y = .ub) := by
  have hx' : rne 24 x = x := hx
  have hy' : rne 24 y = y := hy
  have hc : common a .f32 = .f32 := by cases a <;> rfl
  have hcv : ∀ z, convert .f32 a z = if inRange a (truncZ z) then .ok (truncZ z : Int) else .ub := by
    intro z
    cases a
    · exact absurd rfl ha
    all_goals simp [convert]
  have e : arith inf op a .f32 x y = convert .f32 a (rne 24 (op.exact x y)) := by
    simp only [arith, hc, convert, hx', hy', Outcome.bind_ok, compute]
    rw [if_neg (fun h => h0 h.1 h.2), Outcome.bind_ok]
  rw [e, hcv]
  by_cases hin : inRange a (truncZ (rne 24 (op.exact x y))) = true
  · left
    have := hin
    simp only [inRange, decide_eq_true_eq] at this
    exact ⟨holds_of_range ha this.1 this.2, if_pos hin⟩
  · right
    refine ⟨fun hh => hin ?_, if_neg hin⟩
    obtain ⟨k, e, k1, k2⟩ := holds_int ha hh
    have e' : truncZ (rne 24 (op.exact x y)) = k := by exact_mod_cast e
    simp only [inRange, decide_eq_true_eq, e']
    exact ⟨k1, k2⟩

/-- **C92 (comparing integers).** A comparison of two integer elements is 1 if the relation holds
between the numbers and 0 otherwise. Missing: a negative number compared with a `uint32`, where it is
wrong (`C92_mixed_signs_compare`). -/
theorem C92_compare_integers_partial (r : Rel) {a b : Ty} (ha : a.IsInt) (hb : b.IsInt) {x y : ℚ}
    (hx : a.Holds x) (hy : b.Holds y) (hs : ¬ SignMix a b x y) :
    compare r a b x y = .ok (if r.holds x y then 1 else 0) := by
  obtain ⟨m, rfl, m1, m2⟩ := holds_int ha hx
  obtain ⟨n, rfl, n1, n2⟩ := holds_int hb hy
  unfold SignMix at hs
  push Not at hs
  rw [compare, convert_common ha hb m1 m2 (fun h => by
      have := hs.1 h.1
      have : (0 : Int) ≤ m := by exact_mod_cast this
      omega),
    common_comm a b, convert_common hb ha n1 n2 (fun h => by
      have := hs.2 h.1
      have : (0 : Int) ≤ n := by exact_mod_cast this
      omega)]
  rfl

/-- **C92 (comparing with floats).** When one operand is a float, the comparison is right if both
numbers are values of the float type. -/
theorem C92_compare_floats (r : Rel) {a b : Ty} (hab : a = .f32 ∨ b = .f32) {x y : ℚ}
    (hx : Ty.f32.Holds x) (hy : Ty.f32.Holds y) :
    compare r a b x y = .ok (if r.holds x y then 1 else 0) := by
  have hc : common a b = .f32 := by
    rcases hab with rfl | rfl
    · rfl
    · cases a <;> rfl
  have hx' : rne 24 x = x := hx
  have hy' : rne 24 y = y := hy
  simp only [compare, hc, convert, hx', hy', Outcome.bind_ok]
  rfl

/-- **C92 (comparing with floats, any integer).** When one operand is a float the other is rounded,
so strictness can be lost but order is never reversed: a reported `<` or `>` is true, and a true `≤`
or `≥` or `=` is reported. -/
theorem C92_compare_never_reversed {a b : Ty} (hab : a = .f32 ∨ b = .f32) (x y : ℚ) :
    (compare .lt a b x y = .ok 1 → x < y) ∧ (compare .gt a b x y = .ok 1 → x > y) ∧
    (x ≤ y → compare .le a b x y = .ok 1) ∧ (x ≥ y → compare .ge a b x y = .ok 1) ∧
    (x = y → compare .eq a b x y = .ok 1) := by
  have hc : common a b = .f32 := by
    rcases hab with rfl | rfl
    · rfl
    · cases a <;> rfl
  have e : ∀ r, compare r a b x y = .ok (if r.holds (rne 24 x) (rne 24 y) then 1 else 0) := by
    intro r
    simp only [compare, hc, convert, Outcome.bind_ok]
    rfl
  simp only [e]
  refine ⟨fun h => ?_, fun h => ?_, fun h => ?_, fun h => ?_, fun h => ?_⟩
  · by_contra hn
    rw [if_neg (show ¬ Rel.lt.holds _ _ from
      not_lt.2 (rne_mono (p := 24) (by norm_num) _ _ (not_lt.1 hn)))] at h
    cases h
  · by_contra hn
    rw [if_neg (show ¬ Rel.gt.holds _ _ from
      not_lt.2 (rne_mono (p := 24) (by norm_num) _ _ (not_lt.1 hn)))] at h
    cases h
  · rw [if_pos (show Rel.le.holds _ _ from rne_mono (by norm_num) _ _ h)]
  · rw [if_pos (show Rel.ge.holds _ _ from rne_mono (by norm_num) _ _ h)]
  · rw [if_pos (show Rel.eq.holds _ _ from by rw [h]; rfl)]

/-- **C92 (and).** `logical_and` of two integer elements that are 0 or 1 is their conjunction; floats
are refused. Missing: other numbers that count as true (`C92_and_is_bitwise`). -/
theorem C92_and_partial {a b : Ty} {x y : ℚ} :
    (a.IsInt → b.IsInt → (x = 0 ∨ x = 1) → (y = 0 ∨ y = 1) →
      logicalAnd a b x y = .ok (if x = 1 ∧ y = 1 then 1 else 0)) ∧
    (a = .f32 ∨ b = .f32 → logicalAnd a b x y = .throws .runtimeError) := by
  constructor
  · intro ha hb hx hy
    rcases hx with rfl | rfl <;> rcases hy with rfl | rfl <;> cases a <;> cases b <;>
      first | exact absurd rfl ha | exact absurd rfl hb | decide +kernel
  · intro h
    simp [logicalAnd, h]

/-- **C92 (other types).** Every other data type is refused, on either side. -/
theorem C92_unsupported (d : Dtype) :
    (∃ t, supported d = .ok t ∧ (d.code, d.bits) ∈ [(Code.float, 32), (.int, 32), (.uint, 8), (.uint, 32)]) ∨
    supported d = .throws .runtimeError := by
  unfold supported
  split
  · exact .inl ⟨_, rfl, by simp_all⟩
  · exact .inl ⟨_, rfl, by simp_all⟩
  · exact .inl ⟨_, rfl, by simp_all⟩
  · exact .inl ⟨_, rfl, by simp_all⟩
  · exact .inr rfl

/-! ## Where the property fails -/

/-- What a float division by zero gives plays no role elsewhere. -/
theorem arith_inf (inf inf' : ℚ → ℚ) (op : Op) (a b : Ty) (x y : ℚ)
    (h : op ≠ .div ∨ common a b ≠ .f32) : arith inf op a b x y = arith inf' op a b x y := by
  have : compute inf op (common a b) = compute inf' op (common a b) := by
    funext x y
    generalize common a b = c at h
    cases c
    · rcases h with h | h
      · simp [compute, h]
      · exact absurd rfl h
    all_goals rfl
  simp only [arith, this]

/-- **Violation of C92.** The result has the type of the left operand, so 200 + 100 of two bytes is
44, and a byte plus an `int32` of 300 loses the upper bits, although `300 + 1` in the other order is
right. -/
theorem C92_bytes_wrap (inf : ℚ → ℚ) :
    arith inf .add .u8 .u8 200 100 = .ok 44 ∧ arith inf .add .u8 .i32 1 300 = .ok 45 ∧
      arith inf .add .i32 .u8 300 1 = .ok 301 := by
  refine ⟨?_, ?_, ?_⟩ <;> rw [arith_inf inf (fun _ => 0) _ _ _ _ _ (by decide)] <;> decide +kernel

/-- **Violation of C92.** Dividing -6 by the `uint32` 2 gives 2147483645. -/
theorem C92_mixed_signs_divide (inf : ℚ → ℚ) :
    arith inf .div .i32 .u32 (-6) 2 = .ok 2147483645 := by
  rw [arith_inf inf (fun _ => 0) _ _ _ _ _ (by decide)]; decide +kernel

/-- **Violation of C92.** -1 of an `int32` array is not less than 1 of a `uint32` array. -/
theorem C92_mixed_signs_compare :
    compare .lt .i32 .u32 (-1) 1 = .ok 0 ∧ compare .gt .i32 .u32 (-1) 1 = .ok 1 := by
  constructor <;> decide +kernel

/-- **Violation of C92.** Adding the float 0 to the `int32` 16777217 changes it, and comparing it with
the float 16777216 says equal. -/
theorem C92_float_loses_integers (inf : ℚ → ℚ) :
    arith inf .add .i32 .f32 16777217 0 = .ok 16777216 ∧
      compare .eq .i32 .f32 16777217 16777216 = .ok 1 := by
  rw [arith_inf inf (fun _ => 0) _ _ _ _ _ (by decide)]
  constructor <;> decide +kernel

/-- **Violation of C92.** Overflow of `int`, integer division by zero and floats out of range are
undefined. -/
theorem C92_undefined (inf : ℚ → ℚ) :
    arith inf .add .i32 .i32 2147483647 1 = .ub ∧ arith inf .div .i32 .i32 1 0 = .ub ∧
      arith inf .div .i32 .i32 (-2147483648) (-1) = .ub ∧ arith inf .mul .u8 .f32 200 2 = .ub := by
  refine ⟨?_, ?_, ?_, ?_⟩ <;> rw [arith_inf inf (fun _ => 0) _ _ _ _ _ (by decide)] <;>
    decide +kernel

/-- **Violation of C92.** `logical_and` works on bits: 1 and 2 give 0, and so do 256 and 256. -/
theorem C92_and_is_bitwise :
    logicalAnd .u8 .u8 1 2 = .ok 0 ∧ logicalAnd .i32 .i32 256 256 = .ok 0 := by
  constructor <;> decide +kernel

/-! ## Concrete cases -/

example (inf : ℚ → ℚ) : arith inf .sub .i32 .u32 5 7 = .ok (Op.sub.exact 5 7) := by
  refine C92_integers_exact inf (by decide) (by decide) (by decide) ⟨5, by norm_num⟩
    ⟨7, by norm_num⟩ ⟨-2, ?_⟩
  norm_num [Op.exact]

example (inf : ℚ → ℚ) : arith inf .div .i32 .u8 (-7 : Int) (2 : Int) = .ok ((-3 : Int) : ℚ) :=
  C92_integer_division_partial inf (by decide) (by decide) ⟨-7, by norm_num⟩ ⟨2, by norm_num⟩
    (by decide) (by unfold SignMix; simp) ⟨-3, by norm_num; decide⟩

example (inf : ℚ → ℚ) : arith inf .div .f32 .i32 1 3 = .ok (11184811 / 33554432) := by
  rw [C92_float_rounded_once inf .div (by unfold Ty.Holds; decide +kernel)
    (by unfold Ty.Holds; decide +kernel) (by norm_num)]
  decide +kernel

example (inf : ℚ → ℚ) : arith inf .mul .i32 .f32 7 (1 / 2) = .ok (3 : Int) := by
  rcases C92_float_truncated inf .mul (a := .i32) (x := 7) (y := 1 / 2) (by decide)
    (by unfold Ty.Holds; decide +kernel) (by unfold Ty.Holds; decide +kernel) (by decide) with h | h
  · rw [h.2]; decide +kernel
  · exact absurd ⟨3, by decide +kernel, by norm_num⟩ h.1

example : compare .lt .i32 .u8 (-1) 1 = .ok 1 := by
  rw [C92_compare_integers_partial .lt (a := .i32) (b := .u8) (by decide) (by decide)
    ⟨-1, by norm_num⟩ ⟨1, by norm_num⟩ (by unfold SignMix; simp)]
  decide +kernel

example : compare .lt .i32 .f32 3 (7 / 2) = .ok 1 := by
  rw [C92_compare_floats .lt (Or.inr rfl) (by unfold Ty.Holds; decide +kernel)
    (by unfold Ty.Holds; decide +kernel)]
  decide +kernel

end Bliss.Types
