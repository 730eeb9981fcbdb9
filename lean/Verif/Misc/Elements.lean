import Verif.Misc.Dispatch
import Verif.Flag.Basic
import Verif.Float.Rounding
import Mathlib.Data.Real.Sqrt
import Mathlib.Data.Int.ModEq
import Mathlib.Tactic.IntervalCases
import Mathlib.Tactic.LinearCombination
import Mathlib.Algebra.Order.Field.Power

/-!
# What an operation does to one pair of elements (C122, C123, C124, C125)

`Nd` shows that element-wise operations apply a function to every pair of elements, `Dispatch` which
C++ types the elements have. This file models the functions: bland/bland/ops/cpu/arithmetic_cpu_impl.hpp
and bland/bland/ops/cpu/comparison_cpu_impl.hpp, with the conversions C++ makes when the types differ
(`int` has 32 bits, conversions to signed types wrap). `float` arithmetic is any rounding to 24 bits
with an unbounded exponent; infinities and NaN appear as results only.
-/

namespace Bliss.Elements

open Dispatch Float

/-! ## Model -/

/-- A number in memory or in a register. -/
inductive Num
  | int (n : ℤ)
  | flt (x : ℚ)
  deriving DecidableEq

/-- Least value of an integer type. -/
def lo : Elem → ℤ
  | .i32 => -2 ^ 31
  | .i64 => -2 ^ 63
  | _ => 0

/-- Greatest value of an integer type. -/
def hi : Elem → ℤ
  | .i32 => 2 ^ 31 - 1
  | .i64 => 2 ^ 63 - 1
  | .u8 => 2 ^ 8 - 1
  | .u32 => 2 ^ 32 - 1
  | .f32 => 0

/-- Bits of an integer type. -/
def bits : Elem → Nat
  | .i64 => 64
  | .u8 => 8
  | _ => 32

/-- Integral promotion (`uint8_t` operands become `int`) and the usual arithmetic conversions: the type
in which `a + b`, `a < b`, `a & b` are computed. -/
def common (a b : Elem) : Elem :=
  if a = .f32 ∨ b = .f32 then .f32
  else if a = .i64 ∨ b = .i64 then .i64
  else if a = .u32 ∨ b = .u32 then .u32
  else .i32

/-- The integer of a type that is congruent to `n`. -/
def wrap (t : Elem) (n : ℤ) : ℤ := (n - lo t) % 2 ^ bits t + lo t

/-- Truncation towards zero. -/
def trunc (x : ℚ) : ℤ := if 0 ≤ x then ⌊x⌋ else ⌈x⌉

/-- `static_cast` and implicit conversion: integers wrap, `float` to integer is undefined when the
truncated value is not in the range. -/
def conv (R : Rounding 24) (t : Elem) (v : Num) : Outcome Num :=
  match t, v with
  | .f32, .int n => .ok (.flt (R.r n))
  | .f32, .flt x => .ok (.flt x)
  | t, .int n => .ok (.int (wrap t n))
  | t, .flt x => if lo t ≤ trunc x ∧ trunc x ≤ hi t then .ok (.int (trunc x)) else .ub

/-- Cast of the result: `none` is an infinity or a NaN. -/
def castOut (R : Rounding 24) (t : Elem) (v : Option Num) : Outcome (Option Num) :=
  match v with
  | some v => do let w ← conv R t v; pure (some w)
  | none => if t = .f32 then .ok none else .ub

inductive Op
  | add | sub | mul | div
  deriving DecidableEq

/-- An operation of a common type: signed overflow and division by zero are undefined, unsigned
results wrap, `float` results are rounded. -/
def arith (R : Rounding 24) (t : Elem) (op : Op) (v w : Num) : Outcome (Option Num) :=
  match v, w with
  | .flt x, .flt y =>
    match op with
    | .add => .ok (some (.flt (R.r (x + y))))
    | .sub => .ok (some (.flt (R.r (x - y))))
    | .mul => .ok (some (.flt (R.r (x * y))))
    | .div => if y = 0 then .ok none else .ok (some (.flt (R.r (x / y))))
  | .int x, .int y =>
    let fits (n : ℤ) : Outcome (Option Num) :=
      if t = .u32 then .ok (some (.int (wrap t n)))
      else if lo t ≤ n ∧ n ≤ hi t then .ok (some (.int n)) else .ub
    match op with
    | .add => fits (x + y)
    | .sub => fits (x - y)
    | .mul => fits (x * y)
    | .div => if y = 0 then .ub else fits (x.tdiv y)
  | _, _ => .ub

/-- `elementwise_add_op_ts::call` and the others (arithmetic_cpu_impl.hpp lines 11-50), for elements
of the types `a`, `b` and a result of type `out`. -/
def binary (R : Rounding 24) (op : Op) (out a b : Elem) (v w : Num) : Outcome (Option Num) := do
  let x ← conv R (common a b) v
  let y ← conv R (common a b) w
  let r ← arith R (common a b) op x y
  castOut R out r

inductive Cmp
  | gt | ge | lt | le | eq
  deriving DecidableEq

/-- The comparison of two numbers. -/
def Cmp.holds : Cmp → ℚ → ℚ → Prop
  | .gt, x, y => y < x
  | .ge, x, y => y ≤ x
  | .lt, x, y => x < y
  | .le, x, y => x ≤ y
  | .eq, x, y => x = y

instance (c : Cmp) (x y : ℚ) : Decidable (c.holds x y) := by
  cases c <;> unfold Cmp.holds <;> infer_instance

/-- The number itself. -/
def Num.val : Num → ℚ
  | .int n => n
  | .flt x => x

/-- `greater_than_impl::call` and the others (comparison_cpu_impl.hpp lines 9-42): 0 or 1, a
`uint8_t`. -/
def compare (R : Rounding 24) (c : Cmp) (a b : Elem) (v w : Num) : Outcome ℤ := do
  let x ← conv R (common a b) v
  let y ← conv R (common a b) w
  pure (if c.holds x.val y.val then 1 else 0)

/-- `logical_and_impl::call` (comparison_cpu_impl.hpp lines 44-54): the bits both operands have, cut
to a `uint8_t`; refused when one of them is a `float`. -/
def logicalAnd (a b : Elem) (v w : Num) : Outcome ℤ :=
  match v, w with
  | .int x, .int y =>
    if a = .f32 ∨ b = .f32 then .throws .runtimeError
    else
      let n := bits (common a b)
      .ok ((BitVec.ofInt n x &&& BitVec.ofInt n y).setWidth 8).toNat
  | _, _ => .throws .runtimeError

/-- `elementwise_copy_op::call` (arithmetic_cpu_impl.hpp lines 52-55). -/
def copy (R : Rounding 24) (out : Elem) (v : Num) : Outcome Num := conv R out v

/-- `elementwise_square_op::call` (arithmetic_cpu_impl.hpp lines 57-60). -/
def square (R : Rounding 24) (out a : Elem) (v : Num) : Outcome (Option Num) :=
  binary R .mul out a a v v

/-- `elementwise_abs_op::call` (arithmetic_cpu_impl.hpp lines 68-88): `std::abs` of the least `int` is
undefined; unsigned elements are copied. -/
def abs (R : Rounding 24) (out a : Elem) (v : Num) : Outcome Num :=
  match v with
  | .flt x => conv R out (.flt |x|)
  | .int n =>
    if a = .u8 ∨ a = .u32 then conv R out (.int n)
    else if n = lo a then .ub
    else conv R out (.int |n|)

/-- `elementwise_sqrt_op::call` (arithmetic_cpu_impl.hpp lines 62-65): `std::sqrt` of an integer is
that of a `double`. `sq` and `sq64` are the square roots of the C library for numbers that are not
negative. -/
def sqrt (R : Rounding 24) (D : Rounding 53) (sq sq64 : ℚ → ℚ) (out : Elem) (v : Num) :
    Outcome (Option Num) :=
  match v with
  | .flt x => if x < 0 then castOut R out none else castOut R out (some (.flt (sq x)))
  | .int n => if n < 0 then castOut R out none else castOut R out (some (.flt (sq64 (D.r n))))

/-! ## Specification -/

/-- `v` is a number of the element type. -/
def Typed (R : Rounding 24) (t : Elem) (v : Num) : Prop :=
  match t, v with
  | .f32, .flt x => R.r x = x
  | .f32, .int _ => False
  | t, .int n => lo t ≤ n ∧ n ≤ hi t
  | _, .flt _ => False

/-- The result in mathematics; for integers division drops the fraction. -/
def Op.exact : Op → ℤ → ℤ → ℤ
  | .add, x, y => x + y
  | .sub, x, y => x - y
  | .mul, x, y => x * y
  | .div, x, y => if 0 ≤ x * y then |x| / |y| else -(|x| / |y|)

/-- Addition, subtraction, multiplication and division of rational numbers. -/
def Op.exactQ : Op → ℚ → ℚ → ℚ
  | .add, x, y => x + y
  | .sub, x, y => x - y
  | .mul, x, y => x * y
  | .div, x, y => x / y

/-- Bit `k` of an integer in two's complement. -/
def bit (x : ℤ) (k : ℕ) : Prop := x / 2 ^ k % 2 = 1

/-- A square root that is as good as the format allows: no number of `p` bits lies between the result
and the true root. -/
structure GoodSqrt (p : Nat) (sq : ℚ → ℚ) : Prop where
  lower : ∀ x, 0 ≤ x → ∀ (m : ℕ) (e : ℤ), m ≤ 2 ^ p → (m * 2 ^ e : ℚ) ^ 2 ≤ x → (m * 2 ^ e : ℚ) ≤ sq x
  upper : ∀ x, 0 ≤ x → ∀ (m : ℕ) (e : ℤ), m ≤ 2 ^ p → x ≤ (m * 2 ^ e : ℚ) ^ 2 → sq x ≤ (m * 2 ^ e : ℚ)

/-! ## Integers -/

theorem wrap_range (t : Elem) (ht : t ≠ .f32) (n : ℤ) : lo t ≤ wrap t n ∧ wrap t n ≤ hi t := by
  have h := Int.emod_nonneg (n - lo t) (show (2 : ℤ) ^ bits t ≠ 0 by positivity)
  have h' := Int.emod_lt_of_pos (n - lo t) (show (0 : ℤ) < 2 ^ bits t by positivity)
  unfold wrap
  cases t <;> simp [lo, hi, bits] at * <;> omega

theorem wrap_eq (t : Elem) (ht : t ≠ .f32) {n : ℤ} (h : lo t ≤ n ∧ n ≤ hi t) : wrap t n = n := by
  unfold wrap
  rw [Int.emod_eq_of_lt (by omega) (by cases t <;> simp [lo, hi, bits] at * <;> omega)]
  omega

theorem wrap_modEq (t : Elem) (n : ℤ) : wrap t n ≡ n [ZMOD 2 ^ bits t] := by
  unfold wrap
  have := (Int.mod_modEq (n - lo t) (2 ^ bits t)).add_right (lo t)
  simpa using this

theorem wrap_congr (t : Elem) {m n : ℤ} (h : m ≡ n [ZMOD 2 ^ bits t]) : wrap t m = wrap t n := by
  unfold wrap
  rw [h.sub_right (lo t)]

theorem wrap_wrap (t c : Elem) (h : bits t ≤ bits c) (n : ℤ) : wrap t (wrap c n) = wrap t n :=
  wrap_congr t ((wrap_modEq c n).of_dvd (pow_dvd_pow 2 h))

theorem conv_int (R : Rounding 24) {t : Elem} (ht : t ≠ .f32) (n : ℤ) :
    conv R t (.int n) = .ok (.int (wrap t n)) := by cases t <;> simp_all [conv]

theorem common_ne (a b : Elem) (ha : a ≠ .f32) (hb : b ≠ .f32) : common a b ≠ .f32 := by
  cases a <;> cases b <;> simp_all [common]

theorem common_bits (a b : Elem) (ha : a ≠ .f32) (hb : b ≠ .f32) :
    bits a ≤ bits (common a b) ∧ bits b ≤ bits (common a b) := by
  cases a <;> cases b <;> simp_all [common, bits]

/-- What the conversion to the common type keeps. -/
theorem common_keeps (a b : Elem) (ha : a ≠ .f32) (hb : b ≠ .f32) {x : ℤ}
    (hx : lo a ≤ x ∧ x ≤ hi a) (hu : common a b = .u32 → 0 ≤ x) : wrap (common a b) x = x := by
  refine wrap_eq _ (common_ne a b ha hb) ?_
  cases a <;> cases b <;> simp_all [common, lo, hi] <;> omega

theorem common_comm (a b : Elem) : common a b = common b a := by cases a <;> cases b <;> rfl

theorem tdiv_exact (x y : ℤ) (hy : y ≠ 0) : x.tdiv y = Op.exact .div x y := by
  simp only [Op.exact]
  rcases le_or_gt 0 x with hx | hx <;> rcases lt_or_gt_of_ne hy with hy' | hy'
  · rcases eq_or_lt_of_le hx with rfl | hx'
    · simp
    rw [if_neg (by nlinarith), abs_of_nonneg hx, abs_of_neg hy', ← Int.tdiv_eq_ediv_of_nonneg hx]
    rw [Int.tdiv_neg, neg_neg]
  · rw [if_pos (by positivity), abs_of_nonneg hx, abs_of_pos hy', Int.tdiv_eq_ediv_of_nonneg hx]
  · rw [if_pos (by nlinarith), abs_of_neg hx, abs_of_neg hy', ← Int.tdiv_eq_ediv_of_nonneg (by omega)]
    rw [Int.tdiv_neg, Int.neg_tdiv, neg_neg]
  · rw [if_neg (by nlinarith), abs_of_neg hx, abs_of_pos hy', ← Int.tdiv_eq_ediv_of_nonneg (by omega)]
    rw [Int.neg_tdiv, neg_neg]

section
variable (R : Rounding 24)

/-- C122: arithmetic on integer elements gives the mathematical result (division without the fraction)
reduced to the type of the first operand, unless the type in which C++ computes is signed and does
not hold the result: then the behaviour is undefined. For division the type in which C++ computes must
hold both operands. -/
theorem C122_integers_partial (op : Op) (a b : Elem) (ha : a ≠ .f32) (hb : b ≠ .f32) (x y : ℤ)
    (hx : Typed R a (.int x)) (hy : Typed R b (.int y))
    (hdiv : op = .div → y ≠ 0 ∧ (common a b = .u32 → 0 ≤ x ∧ 0 ≤ y)) :
    binary R op a a b (.int x) (.int y) =
      if common a b = .u32 ∨ (lo (common a b) ≤ op.exact x y ∧ op.exact x y ≤ hi (common a b)) then
        .ok (some (.int (wrap a (op.exact x y)))) else .ub := by
  have hx' : lo a ≤ x ∧ x ≤ hi a := by cases a <;> simp_all [Typed]
  have hy' : lo b ≤ y ∧ y ≤ hi b := by cases b <;> simp_all [Typed]
  have hc := common_ne a b ha hb
  have hca : bits a ≤ bits (common a b) := (common_bits a b ha hb).1
  rw [binary, conv_int R hc, Outcome.bind_ok, conv_int R hc, Outcome.bind_ok]
  by_cases hu : common a b = .u32
  · rw [if_pos (Or.inl hu)]
    have e1 := wrap_modEq .u32 x
    have e2 := wrap_modEq .u32 y
    have hca' : bits a ≤ bits .u32 := hu ▸ hca
    cases op with
    | div =>
      obtain ⟨h0, h1⟩ := hdiv rfl
      have k1 := common_keeps a b ha hb hx' (fun h => (h1 h).1)
      have k2 : wrap (common a b) y = y := by
        have := common_keeps b a hb ha hy' (fun h => (h1 ((common_comm a b).trans h)).2)
        rwa [common_comm b a] at this
      rw [k1, k2, hu]
      simp only [arith, if_true, if_neg h0, Outcome.bind_ok, castOut, conv_int R ha, Outcome.pure_eq]
      rw [wrap_wrap a .u32 hca', tdiv_exact x y h0]
    | add =>
      rw [hu]
      simp only [arith, if_true, Outcome.bind_ok, castOut, conv_int R ha, Outcome.pure_eq, Op.exact]
      rw [wrap_wrap a .u32 hca', wrap_congr a ((e1.add e2).of_dvd (pow_dvd_pow 2 hca'))]
    | sub =>
      rw [hu]
      simp only [arith, if_true, Outcome.bind_ok, castOut, conv_int R ha, Outcome.pure_eq, Op.exact]
      rw [wrap_wrap a .u32 hca', wrap_congr a ((e1.sub e2).of_dvd (pow_dvd_pow 2 hca'))]
    | mul =>
      rw [hu]
      simp only [arith, if_true, Outcome.bind_ok, castOut, conv_int R ha, Outcome.pure_eq, Op.exact]
      rw [wrap_wrap a .u32 hca', wrap_congr a ((e1.mul e2).of_dvd (pow_dvd_pow 2 hca'))]
  · have k1 := common_keeps a b ha hb hx' (fun h => absurd h hu)
    have k2 : wrap (common a b) y = y := by
      have := common_keeps b a hb ha hy' (fun h => absurd ((common_comm a b).trans h) hu)
      rwa [common_comm b a] at this
    rw [k1, k2]
    have key : ∀ n : ℤ, ((if common a b = .u32 then Outcome.ok (some (Num.int (wrap (common a b) n)))
          else if lo (common a b) ≤ n ∧ n ≤ hi (common a b) then .ok (some (Num.int n)) else .ub) >>=
          fun r => castOut R a r) =
        if common a b = .u32 ∨ (lo (common a b) ≤ n ∧ n ≤ hi (common a b)) then
          .ok (some (.int (wrap a n))) else .ub := by
      intro n
      rw [if_neg hu]
      by_cases h : lo (common a b) ≤ n ∧ n ≤ hi (common a b)
      · rw [if_pos h, if_pos (Or.inr h), Outcome.bind_ok, castOut, conv_int R ha, Outcome.bind_ok]
        rfl
      · rw [if_neg h, if_neg (by simp only [hu, h, or_self, not_false_eq_true])]
        rfl
    cases op with
    | div =>
      obtain ⟨h0, -⟩ := hdiv rfl
      rw [← tdiv_exact x y h0, ← key]
      simp only [arith, if_neg h0]
    | add => exact key (x + y)
    | sub => exact key (x - y)
    | mul => exact key (x * y)

/-- C122: the result is exact whenever the type of the first operand holds it. -/
theorem C122_exact_partial (op : Op) (a b : Elem) (ha : a ≠ .f32) (hb : b ≠ .f32) (x y : ℤ)
    (hx : Typed R a (.int x)) (hy : Typed R b (.int y))
    (hdiv : op = .div → y ≠ 0 ∧ (common a b = .u32 → 0 ≤ x ∧ 0 ≤ y))
    (hr : lo a ≤ op.exact x y ∧ op.exact x y ≤ hi a) :
    binary R op a a b (.int x) (.int y) = .ok (some (.int (op.exact x y))) := by
  rw [C122_integers_partial R op a b ha hb x y hx hy hdiv, wrap_eq a ha hr, if_pos]
  by_cases hu : common a b = .u32
  · exact Or.inl hu
  · right
    generalize op.exact x y = n at hr
    clear hdiv hx hy
    cases a <;> cases b <;> simp_all [common, lo, hi] <;> omega

/-- C122: dividing integers by zero is undefined. -/
theorem C122_div_zero_ub (a b : Elem) (ha : a ≠ .f32) (hb : b ≠ .f32) (x : ℤ) :
    binary R .div a a b (.int x) (.int 0) = .ub := by
  have hc := common_ne a b ha hb
  have h0 : wrap (common a b) 0 = 0 := wrap_eq _ hc (by
    cases a <;> cases b <;> simp_all [common, lo, hi])
  rw [binary, conv_int R hc, Outcome.bind_ok, conv_int R hc, Outcome.bind_ok, h0]
  rfl

/-- C122 fails: a negative number divided by an unsigned one of 32 bits. -/
theorem C122_negative_by_unsigned_wrong (x y : ℤ) (hx : lo .i32 ≤ x) (hx0 : x < 0) (hy : 2 ≤ y)
    (hy' : y ≤ hi .u32) :
    binary R .div .i32 .i32 .u32 (.int x) (.int y) = .ok (some (.int ((x + 2 ^ 32) / y))) := by
  simp only [lo, hi] at hx hy'
  have hc : common .i32 .u32 = .u32 := rfl
  have k1 : wrap .u32 x = x + 2 ^ 32 := by simp only [wrap, lo, bits]; omega
  have k2 : wrap .u32 y = y := by simp only [wrap, lo, bits]; omega
  have h1 : 0 ≤ (x + 2 ^ 32) / y := Int.ediv_nonneg (by omega) (by omega)
  have h2 : (x + 2 ^ 32) / y ≤ (x + 2 ^ 32) / 2 := by
    rw [Int.le_ediv_iff_mul_le (by norm_num)]
    have := Int.ediv_mul_le (x + 2 ^ 32) (show y ≠ 0 by omega)
    nlinarith
  rw [binary, hc, conv_int R (by decide), Outcome.bind_ok, conv_int R (by decide), Outcome.bind_ok, k1, k2]
  simp only [arith, if_true, if_neg (show ¬ y = 0 by omega), Outcome.bind_ok, castOut,
    conv_int R (show Elem.i32 ≠ .f32 by decide), Outcome.pure_eq]
  rw [wrap_wrap .i32 .u32 (by decide), Int.tdiv_eq_ediv_of_nonneg (by omega)]
  rw [wrap_eq .i32 (by decide) (by simp only [lo, hi]; omega)]

/-- The function `elementwise_binary_op` applies to every pair of elements. Where the operation is
undefined or gives no number it is some number. -/
def pair (op : Op) (a b : Elem) (v w : Num) : Num :=
  match binary R op a a b v w with
  | .ok (some r) => r
  | _ => .int 0

/-- C122 for whole arrays: two integer arrays of the same shape, also slices, give a new array with the
exact results, if the element type of the first holds them all. -/
theorem C122_arrays_partial (op : Op) (ta tb : Elem) (hta : ta ≠ .f32) (htb : tb ≠ .f32) (h : Nd.Heap Num)
    (a b : Nd.Arr) (junk : Int → Num) (X Y : List Int → ℤ) (hs : b.shape = a.shape) (hne : a.shape ≠ [])
    (hwf : a.WF) (hA : h.Contains a (fun i => .int (X i))) (hB : h.Contains b (fun i => .int (Y i)))
    (hla : a.blk < h.next) (hlb : b.blk < h.next)
    (hel : ∀ i, Nd.ValidIdx a.shape i → Typed R ta (.int (X i)) ∧ Typed R tb (.int (Y i)) ∧
      lo ta ≤ op.exact (X i) (Y i) ∧ op.exact (X i) (Y i) ≤ hi ta ∧
      (op = .div → Y i ≠ 0 ∧ (common ta tb = .u32 → 0 ≤ X i ∧ 0 ≤ Y i))) :
    ∃ h' r, Nd.binOp (pair R op ta tb) h a b junk = .ok (h', r) ∧ r.shape = a.shape ∧
      h'.Contains r (fun i => .int (op.exact (X i) (Y i))) ∧ h.Frame h' := by
  obtain ⟨h', r, e1, e2, -, -, e3, e4⟩ := Flag.bin_same (pair R op ta tb) h a b junk _ _ hs hne hwf hA hB
    hla hlb
  refine ⟨h', r, e1, e2, fun i hi => ?_, e4⟩
  rw [e3 i hi]
  obtain ⟨t1, t2, t3, t4, t5⟩ := hel i (e2 ▸ hi)
  simp only [pair, C122_exact_partial R op ta tb hta htb (X i) (Y i) t1 t2 t5 ⟨t3, t4⟩]

/-! ## `float` -/

theorem conv_float (v : Num) (b : Elem) (hv : Typed R b v) :
    conv R .f32 v = .ok (.flt (R.r v.val)) := by
  cases b <;> cases v <;> simp_all [conv, Typed, Num.val]

theorem common_float (a b : Elem) (h : a = .f32 ∨ b = .f32) : common a b = .f32 := by
  unfold common; rw [if_pos h]

theorem binary_float (op : Op) (out a b : Elem) (h : a = .f32 ∨ b = .f32) (v w : Num) (hv : Typed R a v)
    (hw : Typed R b w) (h0 : op = .div → R.r w.val ≠ 0) :
    binary R op out a b v w = castOut R out (some (.flt (R.r (op.exactQ (R.r v.val) (R.r w.val))))) := by
  rw [binary, common_float a b h, conv_float R v a hv, Outcome.bind_ok, conv_float R w b hw,
    Outcome.bind_ok]
  cases op with
  | div => simp only [arith, if_neg (h0 rfl), Outcome.bind_ok, Op.exactQ]
  | add => rfl
  | sub => rfl
  | mul => rfl

theorem typed_val {t : Elem} {v : Num} (hv : Typed R t v)
    (hs : ∀ n, v = .int n → |n| ≤ 2 ^ 24) : R.r v.val = v.val := by
  cases v with
  | int n => exact R.int n (hs n rfl)
  | flt x => cases t <;> simp_all [Typed, Num.val]

/-- C122: an operation on a `float` element and any other is correctly rounded, as long as an integer
operand is at most 2^24 in magnitude. -/
theorem C122_float_partial (op : Op) (b : Elem) (v w : Num) (hv : Typed R .f32 v) (hw : Typed R b w)
    (hs : ∀ n, w = .int n → |n| ≤ 2 ^ 24) (h0 : op = .div → w.val ≠ 0) :
    binary R op .f32 .f32 b v w = .ok (some (.flt (R.r (op.exactQ v.val w.val)))) := by
  have e1 : R.r v.val = v.val := typed_val R hv (fun n hn => by subst hn; exact absurd hv (by simp [Typed]))
  have e2 := typed_val R hw hs
  rw [binary_float R op .f32 .f32 b (Or.inl rfl) v w hv hw (by rw [e2]; exact h0), e1, e2]
  rfl

/-- C122: an operation on an integer element and a `float` drops the fraction of the rounded result,
and is undefined when the type does not hold that. -/
theorem C122_integer_float_partial (op : Op) (a : Elem) (ha : a ≠ .f32) (n : ℤ) (y : ℚ)
    (hn : Typed R a (.int n)) (hs : |n| ≤ 2 ^ 24) (hy : Typed R .f32 (.flt y)) (h0 : op = .div → y ≠ 0) :
    binary R op a a .f32 (.int n) (.flt y) =
      if lo a ≤ trunc (R.r (op.exactQ n y)) ∧ trunc (R.r (op.exactQ n y)) ≤ hi a then
        .ok (some (.int (trunc (R.r (op.exactQ n y))))) else .ub := by
  have e1 : R.r (Num.int n).val = n := R.int n hs
  have e2 : R.r (Num.flt y).val = y := hy
  rw [binary_float R op a a .f32 (Or.inr rfl) _ _ hn hy (by rw [e2]; exact h0), e1, e2]
  generalize R.r (op.exactQ n y) = z
  unfold castOut
  have : conv R a (.flt z) = if lo a ≤ trunc z ∧ trunc z ≤ hi a then .ok (.int (trunc z)) else .ub := by
    cases a <;> simp_all [conv]
  simp only [this]
  split <;> rfl

/-- C122: where `uint8_t` elements and a `uint8_t` scalar wrap around, a `float` scalar makes the
behaviour undefined. -/
theorem C122_float_scalar_overflow_ub :
    binary R .add .u8 .u8 .u8 (.int 255) (.int 1) = .ok (some (.int 0)) ∧
      binary R .add .u8 .u8 .f32 (.int 255) (.flt 1) = .ub := by
  constructor
  · rfl
  · rw [C122_integer_float_partial R .add .u8 (by decide) 255 1 (by simp [Typed, lo, hi]) (by norm_num)
      (by have := R.int 1 (by norm_num); simpa [Typed] using this) (by simp)]
    have : R.r (Op.add.exactQ (255 : ℤ) 1) = 256 := by
      have := R.int 256 (by norm_num)
      norm_num [Op.exactQ] at this ⊢
      exact this
    rw [this, if_neg]
    norm_num [trunc, hi, lo]

/-! ## Comparisons -/

/-- C123: a comparison of elements is the comparison of the numbers, if the type in which C++ compares
keeps both: no negative number against an unsigned one of 32 bits, no integer beyond 2^24 against a
`float`. -/
theorem C123_compare_partial (c : Cmp) (a b : Elem) (v w : Num) (hv : Typed R a v) (hw : Typed R b w)
    (hu : common a b = .u32 → 0 ≤ v.val ∧ 0 ≤ w.val)
    (hf : common a b = .f32 → (∀ n, v = .int n → |n| ≤ 2 ^ 24) ∧ ∀ n, w = .int n → |n| ≤ 2 ^ 24) :
    compare R c a b v w = .ok (if c.holds v.val w.val then 1 else 0) := by
  by_cases h : a = .f32 ∨ b = .f32
  · have hc := common_float a b h
    obtain ⟨h1, h2⟩ := hf hc
    rw [compare, hc, conv_float R v a hv, Outcome.bind_ok, conv_float R w b hw, Outcome.bind_ok,
      typed_val R hv h1, typed_val R hw h2]
    rfl
  · obtain ⟨ha, hb⟩ := not_or.1 h
    cases v with
    | flt x => cases a <;> simp_all [Typed]
    | int x =>
      cases w with
      | flt y => cases b <;> simp_all [Typed]
      | int y =>
        have hx' : lo a ≤ x ∧ x ≤ hi a := by cases a <;> simp_all [Typed]
        have hy' : lo b ≤ y ∧ y ≤ hi b := by cases b <;> simp_all [Typed]
        have k1 := common_keeps a b ha hb hx' (fun h => by simpa [Num.val] using (hu h).1)
        have k2 : wrap (common a b) y = y := by
          have := common_keeps b a hb ha hy'
            (fun h => by simpa [Num.val] using (hu ((common_comm a b).trans h)).2)
          rwa [common_comm b a] at this
        rw [compare, conv_int R (common_ne a b ha hb), Outcome.bind_ok, conv_int R (common_ne a b ha hb),
          Outcome.bind_ok, k1, k2]
        rfl

/-- C123: against a `float`, whatever the numbers: what is reported strictly greater or less is so, and
what is reported not greater-or-equal or not less-or-equal is not. -/
theorem C123_float_order (a b : Elem) (h : a = .f32 ∨ b = .f32) (v w : Num) (hv : Typed R a v)
    (hw : Typed R b w) :
    (compare R .gt a b v w = .ok 1 → w.val < v.val) ∧ (compare R .lt a b v w = .ok 1 → v.val < w.val) ∧
    (compare R .ge a b v w = .ok 0 → v.val < w.val) ∧ (compare R .le a b v w = .ok 0 → w.val < v.val) := by
  have hc := common_float a b h
  have e : ∀ c, compare R c a b v w = .ok (if c.holds (R.r v.val) (R.r w.val) then 1 else 0) := by
    intro c
    rw [compare, hc, conv_float R v a hv, Outcome.bind_ok, conv_float R w b hw, Outcome.bind_ok]
    rfl
  have m1 : R.r w.val < R.r v.val → w.val < v.val := fun h => by
    by_contra h'; exact absurd (R.mono _ _ (not_lt.1 h')) (not_le.2 h)
  have m2 : R.r v.val < R.r w.val → v.val < w.val := fun h => by
    by_contra h'; exact absurd (R.mono _ _ (not_lt.1 h')) (not_le.2 h)
  have one : ∀ c : Cmp, compare R c a b v w = .ok 1 → c.holds (R.r v.val) (R.r w.val) := by
    intro c h
    rw [e] at h
    by_contra hn
    rw [if_neg hn] at h
    simp at h
  have zero : ∀ c : Cmp, compare R c a b v w = .ok 0 → ¬ c.holds (R.r v.val) (R.r w.val) := by
    intro c h hn
    rw [e, if_pos hn] at h
    simp at h
  exact ⟨fun h => m1 (one _ h), fun h => m2 (one _ h), fun h => m2 (not_le.1 (zero _ h)),
    fun h => m1 (not_le.1 (zero _ h))⟩

/-- C123 fails: every negative `int32_t` element compares greater than every `uint32_t` below 2^31. -/
theorem C123_negative_unsigned_wrong (x y : ℤ) (hx : lo .i32 ≤ x) (hx0 : x < 0) (hy : 0 ≤ y)
    (hy' : y < 2 ^ 31) : compare R .gt .i32 .u32 (.int x) (.int y) = .ok 1 := by
  simp only [lo] at hx
  have hc : common .i32 .u32 = .u32 := rfl
  have k1 : wrap .u32 x = x + 2 ^ 32 := by simp only [wrap, lo, bits]; omega
  have k2 : wrap .u32 y = y := by simp only [wrap, lo, bits]; omega
  rw [compare, hc, conv_int R (by decide), Outcome.bind_ok, conv_int R (by decide), Outcome.bind_ok, k1, k2]
  rw [if_pos (show Cmp.gt.holds (Num.int (x + 2 ^ 32)).val (Num.int y).val from
    Int.cast_lt.2 (by omega : y < x + 2 ^ 32))]
  rfl

end

/-- C123 fails: two different numbers compare equal when one is a `float`. -/
theorem C123_float_equal_wrong :
    compare (nearestEven 24 (by norm_num)) .eq .i32 .f32 (.int 16777217) (.flt 16777216) = .ok 1 := by
  decide +kernel

/-! ## Bits -/

theorem bit_ofInt (n k : ℕ) (hk : k < n) (x : ℤ) : (BitVec.ofInt n x).getLsbD k = true ↔ bit x k := by
  have h2 : (2 : ℤ) ^ n = 2 ^ k * (2 * 2 ^ (n - k - 1)) := by
    rw [← pow_succ', ← pow_add]; congr 1; omega
  have h3 : x % 2 ^ n / 2 ^ k % 2 = x / 2 ^ k % 2 := by
    have e : x % 2 ^ n = x + 2 ^ k * (-(2 * 2 ^ (n - k - 1) * (x / 2 ^ n))) := by
      have := Int.emod_add_mul_ediv x (2 ^ n)
      generalize x / 2 ^ n = q at *
      rw [h2] at this
      rw [h2]
      linear_combination this
    rw [e, Int.add_mul_ediv_left _ _ (by positivity), mul_assoc, ← mul_neg, Int.add_mul_emod_self_left]
  have h4 : (0 : ℤ) ≤ x % 2 ^ n := Int.emod_nonneg _ (by positivity)
  unfold bit
  rw [← h3, BitVec.getLsbD, BitVec.toNat_ofInt, Nat.testBit_eq_decide_div_mod_eq, decide_eq_true_iff]
  push_cast
  generalize x % 2 ^ n = m at h4
  obtain ⟨m, rfl⟩ := Int.eq_ofNat_of_zero_le h4
  rw [Int.toNat_natCast]
  exact_mod_cast Iff.rfl

/-- C124: `&` of integer elements has exactly the bits both have, of the lowest eight. -/
theorem C124_bits (R : Rounding 24) (a b : Elem) (ha : a ≠ .f32) (hb : b ≠ .f32) (x y : ℤ)
    (_hx : Typed R a (.int x)) (_hy : Typed R b (.int y)) :
    ∃ r : ℤ, logicalAnd a b (.int x) (.int y) = .ok r ∧ 0 ≤ r ∧ r < 256 ∧
      ∀ k, bit r k ↔ k < 8 ∧ bit x k ∧ bit y k := by
  let n := bits (common a b)
  refine ⟨((BitVec.ofInt n x &&& BitVec.ofInt n y).setWidth 8).toNat, ?_, by positivity, ?_, ?_⟩
  · simp only [logicalAnd]; rw [if_neg (by simp [ha, hb])]
  · have := ((BitVec.ofInt n x &&& BitVec.ofInt n y).setWidth 8).isLt
    exact_mod_cast this
  · intro k
    have hb8 : 8 ≤ n := by
      show 8 ≤ bits (common a b)
      cases a <;> cases b <;> simp [common, bits]
    have e : bit (((BitVec.ofInt n x &&& BitVec.ofInt n y).setWidth 8).toNat : ℤ) k ↔
        ((BitVec.ofInt n x &&& BitVec.ofInt n y).setWidth 8).getLsbD k = true := by
      rw [BitVec.getLsbD, Nat.testBit_eq_decide_div_mod_eq, decide_eq_true_iff]
      unfold bit
      exact_mod_cast Iff.rfl
    rw [e, BitVec.getLsbD_setWidth, BitVec.getLsbD_and]
    by_cases hk : k < 8
    · simp only [hk, decide_true, Bool.true_and, Bool.and_eq_true, true_and]
      rw [bit_ofInt n k (by omega), bit_ofInt n k (by omega)]
    · simp [hk]

theorem bit_high {x : ℤ} (h0 : 0 ≤ x) (h : x < 256) {k : ℕ} (hk : 8 ≤ k) : ¬ bit x k := by
  unfold bit
  have : x / 2 ^ k = 0 := Int.ediv_eq_zero_of_lt h0 (lt_of_lt_of_le h (by
    calc (256 : ℤ) = 2 ^ 8 := by norm_num
      _ ≤ 2 ^ k := pow_le_pow_right₀ (by norm_num) hk))
  rw [this]; decide

/-- C124: of elements up to 255, flags among them, `&` keeps every bit. -/
theorem C124_bytes_partial (R : Rounding 24) (a b : Elem) (ha : a ≠ .f32) (hb : b ≠ .f32) (x y : ℤ)
    (hx : Typed R a (.int x)) (hy : Typed R b (.int y)) (hx0 : 0 ≤ x) (hx' : x < 256) :
    ∃ r : ℤ, logicalAnd a b (.int x) (.int y) = .ok r ∧ ∀ k, bit r k ↔ bit x k ∧ bit y k := by
  obtain ⟨r, h1, -, -, h2⟩ := C124_bits R a b ha hb x y hx hy
  refine ⟨r, h1, fun k => ?_⟩
  rw [h2]
  constructor
  · exact fun h => h.2
  · intro h
    refine ⟨?_, h⟩
    by_contra hk
    exact bit_high hx0 hx' (by omega) h.1

/-- C124 fails: wider elements lose all bits but the lowest eight; an element `&` itself can be 0. -/
theorem C124_high_bits_lost (R : Rounding 24) (a : Elem) (ha : a ≠ .f32) (x : ℤ)
    (hx : Typed R a (.int x)) (h : x % 256 = 0) : logicalAnd a a (.int x) (.int x) = .ok 0 := by
  obtain ⟨r, h1, h2, h3, h4⟩ := C124_bits R a a ha ha x x hx hx
  rw [h1]
  have hbits : ∀ k, ¬ bit r k := by
    intro k hk
    obtain ⟨h5, h6, -⟩ := (h4 k).1 hk
    unfold bit at h6
    interval_cases k <;> norm_num at h6 <;> omega
  have b0 := hbits 0
  have b1 := hbits 1
  have b2 := hbits 2
  have b3 := hbits 3
  have b4 := hbits 4
  have b5 := hbits 5
  have b6 := hbits 6
  have b7 := hbits 7
  unfold bit at b0 b1 b2 b3 b4 b5 b6 b7
  norm_num at b0 b1 b2 b3 b4 b5 b6 b7
  congr 1
  omega

/-- C124: `&` of a `float` element is refused. -/
theorem C124_float_refused (a b : Elem) (h : a = .f32 ∨ b = .f32) (v w : Num) :
    logicalAnd a b v w = .throws .runtimeError := by
  cases v <;> cases w <;> simp [logicalAnd, h]

/-! ## One operand -/

section
variable (R : Rounding 24)

/-- C125: the absolute value of every element of a signed type or `float` but the least integer, whose
absolute value is undefined; unsigned elements are their own. -/
theorem C125_abs_partial (a : Elem) (v : Num) (hv : Typed R a v) (hmin : a ≠ .u8 → a ≠ .u32 → v ≠ .int (lo a)) :
    ∃ w, abs R a a v = .ok w ∧ w.val = |v.val| := by
  cases v with
  | flt x => cases a <;> simp_all [Typed, abs, conv, Num.val]
  | int n =>
    have hr : a ≠ .f32 ∧ lo a ≤ n ∧ n ≤ hi a := by cases a <;> simp_all [Typed]
    by_cases hu : a = .u8 ∨ a = .u32
    · refine ⟨.int n, ?_, ?_⟩
      · rw [abs, if_pos hu, conv_int R hr.1, wrap_eq a hr.1 hr.2]
      · have : (0 : ℤ) ≤ n := by rcases hu with rfl | rfl <;> exact hr.2.1
        rw [Num.val, abs_of_nonneg (by exact_mod_cast this)]
    · obtain ⟨h1, h2⟩ := not_or.1 hu
      have hne : n ≠ lo a := fun h => hmin h1 h2 (by rw [h])
      refine ⟨.int |n|, ?_, by simp [Num.val]⟩
      rw [abs, if_neg hu, if_neg hne, conv_int R hr.1, wrap_eq a hr.1]
      have hsym : hi a = -lo a - 1 := by cases a <;> simp_all [hi, lo]
      have := abs_le.2 (⟨by omega, by omega⟩ : -(-lo a - 1) ≤ n ∧ n ≤ -lo a - 1)
      have := abs_nonneg n
      omega

/-- C125: the least integer has no absolute value. -/
theorem C125_abs_least_ub (out : Elem) : abs R out .i32 (.int (-2 ^ 31)) = .ub ∧
    abs R out .i64 (.int (-2 ^ 63)) = .ub := ⟨rfl, rfl⟩

/-- C125: the square of an element is exact when its type holds it; `float` squares are rounded. -/
theorem C125_square_partial (a : Elem) (v : Num) (hv : Typed R a v)
    (hr : ∀ n, v = .int n → n * n ≤ hi a) :
    ∃ w, square R a a v = .ok (some w) ∧ w.val = if a = .f32 then R.r (v.val * v.val) else v.val * v.val := by
  cases v with
  | flt x =>
    have ha : a = .f32 := by cases a <;> simp_all [Typed]
    subst ha
    refine ⟨.flt (R.r (x * x)), ?_, by simp [Num.val]⟩
    exact C122_float_partial R .mul .f32 (.flt x) (.flt x) hv hv (by simp) (by simp)
  | int n =>
    have ha : a ≠ .f32 := by rintro rfl; exact hv
    have hl : lo a ≤ n * n := le_trans (by cases a <;> simp [lo]) (mul_self_nonneg n)
    refine ⟨.int (n * n), C122_exact_partial R .mul a a ha ha n n hv hv (by simp) ⟨hl, hr n rfl⟩, ?_⟩
    rw [if_neg ha]; simp [Num.val]

/-- C125: copying into an array of another type keeps every number that type holds (integers up to 2^24
in the case of `float`); other integers wrap, other `float` numbers lose their fraction. -/
theorem C125_copy_partial (a out : Elem) (v : Num) (hv : Typed R a v) :
    (out ≠ .f32 → ∀ n : ℤ, v.val = n → lo out ≤ n → n ≤ hi out → copy R out v = .ok (.int n)) ∧
    (out = .f32 → (∀ n, v = .int n → |n| ≤ 2 ^ 24) → copy R out v = .ok (.flt v.val)) ∧
    (out ≠ .f32 → ∀ n, v = .int n → copy R out v = .ok (.int (wrap out n))) ∧
    (out ≠ .f32 → ∀ x, v = .flt x → lo out ≤ trunc x → trunc x ≤ hi out →
      copy R out v = .ok (.int (trunc x))) := by
  have ht : ∀ n : ℤ, trunc (n : ℚ) = n := by intro n; unfold trunc; split <;> simp
  have hflt : out ≠ .f32 → ∀ x : ℚ, conv R out (.flt x) =
      if lo out ≤ trunc x ∧ trunc x ≤ hi out then .ok (.int (trunc x)) else .ub := by
    intro h x; cases out <;> simp_all [conv]
  refine ⟨?_, ?_, ?_, ?_⟩
  · intro h n hn h1 h2
    cases v with
    | int m =>
      have : m = n := by exact_mod_cast (show (m : ℚ) = n from hn)
      rw [copy, conv_int R h, this, wrap_eq out h ⟨h1, h2⟩]
    | flt x =>
      have : x = (n : ℚ) := hn
      rw [copy, hflt h, this, ht, if_pos ⟨h1, h2⟩]
  · rintro rfl hs
    rw [copy, conv_float R v a hv, typed_val R hv hs]
  · rintro h n rfl
    exact conv_int R h n
  · rintro h x rfl h1 h2
    rw [copy, hflt h, if_pos ⟨h1, h2⟩]

/-- C125: the square root of an integer element below 2^52 is the greatest integer whose square does not
exceed it. -/
theorem C125_sqrt_integer_partial (D : Rounding 53) (sq sq64 : ℚ → ℚ) (hs : GoodSqrt 53 sq64) (a : Elem)
    (ha : a ≠ .f32) (n : ℤ) (hn : Typed R a (.int n)) (h0 : 0 ≤ n) (h52 : n < 2 ^ 52) :
    ∃ r : ℤ, sqrt R D sq sq64 a (.int n) = .ok (some (.int r)) ∧ 0 ≤ r ∧ r * r ≤ n ∧ n < (r + 1) * (r + 1) := by
  obtain ⟨N, rfl⟩ := Int.eq_ofNat_of_zero_le h0
  have hN : N < 2 ^ 52 := by exact_mod_cast h52
  set r := Nat.sqrt N with hr
  have r1 : r * r ≤ N := Nat.sqrt_le N
  have r2 : N < (r + 1) * (r + 1) := Nat.lt_succ_sqrt N
  have r3 : r + 1 ≤ 2 ^ 26 := by
    by_contra h
    have : 2 ^ 26 ≤ r := by omega
    have := Nat.mul_le_mul this this
    omega
  have hD : D.r ((N : ℤ) : ℚ) = N := by
    have h53 : |(N : ℤ)| ≤ 2 ^ 53 := by rw [abs_of_nonneg h0]; norm_num at h52 ⊢; omega
    rw [D.int _ h53, Int.cast_natCast]
  have hlow : (r : ℚ) ≤ sq64 N := by
    have := hs.lower N (by positivity) r 0 (by omega) (by
      simp only [zpow_zero, mul_one]
      rw [pow_two]; exact_mod_cast r1)
    simpa using this
  have hup : sq64 N < r + 1 := by
    have hy : ((((r + 1) * 2 ^ 27 - 1 : ℕ) : ℚ) * 2 ^ (-27 : ℤ)) = (r + 1) - 1 / 2 ^ 27 := by
      rw [Nat.cast_sub (by have : 0 < (r + 1) * 2 ^ 27 := by positivity
                           omega)]
      push_cast
      rw [show (2 : ℚ) ^ (-27 : ℤ) = 1 / 2 ^ 27 by norm_num]
      ring
    have := hs.upper N (by positivity) ((r + 1) * 2 ^ 27 - 1) (-27) (by omega) (by
      rw [hy]
      have q1 : (N : ℚ) + 1 ≤ (r + 1) * (r + 1) := by exact_mod_cast r2
      have q2 : (r : ℚ) + 1 ≤ 2 ^ 26 := by exact_mod_cast r3
      norm_num at q2 ⊢
      nlinarith)
    rw [hy] at this
    refine lt_of_le_of_lt this ?_
    norm_num
  have hfl : trunc (sq64 N) = r := by
    unfold trunc
    rw [if_pos (le_trans (by positivity) hlow), Int.floor_eq_iff]
    exact ⟨by exact_mod_cast hlow, by exact_mod_cast hup⟩
  have hrange : lo a ≤ (r : ℤ) ∧ (r : ℤ) ≤ hi a := by
    have h1 : (N : ℤ) ≤ hi a := by cases a <;> simp_all [Typed]
    have h2 : r ≤ N := Nat.sqrt_le_self N
    refine ⟨le_trans (by cases a <;> simp [lo]) (Int.natCast_nonneg r), by omega⟩
  refine ⟨r, ?_, Int.natCast_nonneg r, by exact_mod_cast r1, by exact_mod_cast r2⟩
  rw [sqrt, if_neg (by omega), hD]
  have : conv R a (.flt (sq64 N)) = .ok (.int r) := by
    have : conv R a (.flt (sq64 N)) = if lo a ≤ trunc (sq64 N) ∧ trunc (sq64 N) ≤ hi a then
        .ok (.int (trunc (sq64 N))) else .ub := by cases a <;> simp_all [conv]
    rw [this, hfl, if_pos hrange]
  simp only [castOut, this]
  rfl

/-- C125: the square root of a negative integer element is undefined; that of a negative `float` is no
number. -/
theorem C125_sqrt_negative (D : Rounding 53) (sq sq64 : ℚ → ℚ) (a : Elem) (ha : a ≠ .f32) (n : ℤ) (x : ℚ)
    (hn : n < 0) (hx : x < 0) :
    sqrt R D sq sq64 a (.int n) = .ub ∧ sqrt R D sq sq64 .f32 (.flt x) = .ok none := by
  constructor
  · rw [sqrt, if_pos hn, castOut, if_neg ha]
  · rw [sqrt, if_pos hx, castOut, if_pos rfl]

end

/-! ## Examples -/

/-- The root rounded down to 53 bits. -/
noncomputable def downSqrt (p : Nat) (x : ℚ) : ℚ :=
  if x ≤ 0 then 0
  else (⌊Real.sqrt x * 2 ^ ((p : ℤ) - 1 - Int.log 2 (Real.sqrt x))⌋ : ℚ) *
    2 ^ (Int.log 2 (Real.sqrt x) + 1 - p)

theorem downSqrt_good (p : Nat) (hp : 0 < p) : GoodSqrt p (downSqrt p) := by
  have key : ∀ x : ℚ, 0 < x → ((downSqrt p x : ℚ) : ℝ) ≤ Real.sqrt x := by
    intro x hx
    unfold downSqrt
    rw [if_neg (by linarith)]
    push_cast
    have h := Int.floor_le (Real.sqrt x * 2 ^ ((p : ℤ) - 1 - Int.log 2 (Real.sqrt x)))
    generalize Int.log 2 (Real.sqrt x) = e at *
    calc _ ≤ Real.sqrt x * 2 ^ ((p : ℤ) - 1 - e) * 2 ^ (e + 1 - p) :=
          mul_le_mul_of_nonneg_right h (by positivity)
      _ = Real.sqrt x := by
          rw [mul_assoc, ← zpow_add₀ (by norm_num), show (p : ℤ) - 1 - e + (e + 1 - p) = 0 by ring]; simp
  constructor
  · intro x hx m e hm h
    rcases eq_or_lt_of_le hx with rfl | hx'
    · have : (m * 2 ^ e : ℚ) = 0 := by
        have := sq_nonneg (m * 2 ^ e : ℚ)
        exact pow_eq_zero_iff (two_ne_zero) |>.1 (le_antisymm h this)
      rw [this]; simp [downSqrt]
    have hs : ((m * 2 ^ e : ℚ) : ℝ) ≤ Real.sqrt x := by
      apply Real.le_sqrt_of_sq_le
      exact_mod_cast h
    have hpos : 0 < Real.sqrt x := Real.sqrt_pos.2 (by exact_mod_cast hx')
    have hlog := Int.zpow_log_le_self (b := 2) (by norm_num) hpos
    unfold downSqrt
    rw [if_neg (by linarith)]
    generalize Int.log 2 (Real.sqrt x) = l at *
    -- an integer multiple of the last place that is at most the root is at most the result
    have mult : ∀ k : ℤ, ((k : ℝ) * 2 ^ (l + 1 - p) ≤ Real.sqrt x) →
        (k : ℚ) * 2 ^ (l + 1 - (p : ℤ)) ≤
          (⌊Real.sqrt x * 2 ^ ((p : ℤ) - 1 - l)⌋ : ℚ) * 2 ^ (l + 1 - (p : ℤ)) := by
      intro k hk
      refine mul_le_mul_of_nonneg_right ?_ (by positivity)
      have : k ≤ ⌊Real.sqrt x * 2 ^ ((p : ℤ) - 1 - l)⌋ := by
        rw [Int.le_floor]
        have h2 := mul_le_mul_of_nonneg_right hk (show (0 : ℝ) ≤ 2 ^ ((p : ℤ) - 1 - l) by positivity)
        rw [mul_assoc, ← zpow_add₀ (by norm_num), show l + 1 - (p : ℤ) + ((p : ℤ) - 1 - l) = 0 by ring] at h2
        simpa using h2
      exact_mod_cast this
    by_cases hle : l + 1 - p ≤ e
    · obtain ⟨d, hd⟩ := Int.eq_ofNat_of_zero_le (sub_nonneg.2 hle)
      have hd' : e = d + (l + 1 - p) := by omega
      have e1 : (m * 2 ^ e : ℚ) = ((m * 2 ^ d : ℕ) : ℤ) * 2 ^ (l + 1 - (p : ℤ)) := by
        rw [hd', zpow_add₀ (by norm_num)]; push_cast; rw [zpow_natCast]; ring
      rw [e1]
      refine mult _ ?_
      have e2 : ((m * 2 ^ e : ℚ) : ℝ) = ((m * 2 ^ d : ℕ) : ℤ) * 2 ^ (l + 1 - (p : ℤ)) := by
        rw [e1]; push_cast; ring
      rw [← e2]; exact hs
    · have hb : (m * 2 ^ e : ℚ) ≤ ((2 ^ (p - 1) : ℕ) : ℤ) * 2 ^ (l + 1 - (p : ℤ)) := by
        have h1 : (m : ℚ) ≤ 2 ^ (p : ℤ) := by rw [zpow_natCast]; exact_mod_cast hm
        have h2 : (2 : ℚ) ^ e ≤ 2 ^ (l - p) := zpow_le_zpow_right₀ (by norm_num) (by omega)
        calc (m * 2 ^ e : ℚ) ≤ 2 ^ (p : ℤ) * 2 ^ (l - p) := mul_le_mul h1 h2 (by positivity) (by positivity)
          _ = 2 ^ l := by rw [← zpow_add₀ (by norm_num)]; congr 1; ring
          _ = _ := by
              push_cast
              rw [← zpow_natCast, ← zpow_add₀ (by norm_num)]; congr 1; omega
      refine le_trans hb (mult _ ?_)
      refine le_trans (le_of_eq ?_) hlog
      push_cast
      rw [← zpow_natCast, ← zpow_add₀ (by norm_num)]; congr 1; omega
  · intro x hx m e hm h
    rcases eq_or_lt_of_le hx with rfl | hx'
    · simp only [downSqrt, le_refl, if_true]; positivity
    have h1 := key x hx'
    have h2 : Real.sqrt x ≤ ((m * 2 ^ e : ℚ) : ℝ) := by
      apply Real.sqrt_le_iff.2
      refine ⟨by positivity, ?_⟩
      exact_mod_cast h
    exact_mod_cast h1.trans h2

-- the hypotheses of the theorem on arrays: 7 - [0, 1, 2, 3] and a slice of the second operand
example (R : Rounding 24) : ∃ h' r, Nd.binOp (pair R .sub .u8 .u8)
      (⟨fun b => if b = 0 then Buf.ofFn 4 (fun _ => .int 7) else Buf.ofFn 6 (fun i => .int (i - 2)), 2⟩ : Nd.Heap Num)
      ⟨0, [⟨4, 1, 0⟩]⟩ ⟨1, [⟨4, 1, 2⟩]⟩ (fun _ => .int 0) = .ok (h', r) ∧
    h'.get r [3] = some (.int 4) := by
  have hv : ∀ i, Nd.ValidIdx [4] i → ∃ k, i = [k] ∧ 0 ≤ k ∧ k < 4 := by
    intro i hi
    match i, hi with
    | [k], List.Forall₂.cons hk List.Forall₂.nil => exact ⟨k, rfl, hk.1, hk.2⟩
  obtain ⟨h', r, e1, e2, e3, -⟩ := C122_arrays_partial R .sub .u8 .u8 (by decide) (by decide)
    (⟨fun b => if b = 0 then Buf.ofFn 4 (fun _ => .int 7) else Buf.ofFn 6 (fun i => .int (i - 2)), 2⟩ : Nd.Heap Num)
    ⟨0, [⟨4, 1, 0⟩]⟩ ⟨1, [⟨4, 1, 2⟩]⟩ (fun _ => .int 0) (fun _ => 7) (fun i => i.headD 0) rfl
    (by simp [Nd.Arr.shape]) (by intro d hd; simp at hd; subst hd; decide)
    (by
      intro i hi
      obtain ⟨k, rfl, h0, h4⟩ := hv i hi
      simp only [Nd.Heap.get, Nd.addr, if_pos, Buf.ofFn]
      rw [if_pos (by omega)])
    (by
      intro i hi
      obtain ⟨k, rfl, h0, h4⟩ := hv i hi
      simp only [Nd.Heap.get, Nd.addr, Buf.ofFn, show ¬ (1 : Nat) = 0 by decide, if_false]
      rw [if_pos (by omega)]
      simp)
    (by decide) (by decide)
    (by
      intro i hi'
      obtain ⟨k, rfl, h0, h4⟩ := hv i hi'
      simp only [Typed, lo, hi, Op.exact, List.headD_cons]
      refine ⟨by omega, by omega, by omega, by omega, by simp⟩)
  refine ⟨h', r, e1, ?_⟩
  rw [e3 [3] (by rw [e2]; exact List.Forall₂.cons ⟨by decide, by decide⟩ List.Forall₂.nil)]
  rfl

example (R : Rounding 24) : binary R .sub .u8 .u8 .i32 (.int 3) (.int 5) = .ok (some (.int 254)) := rfl
example (R : Rounding 24) : binary R .add .i32 .i32 .i32 (.int (2 ^ 31 - 1)) (.int 1) = .ub := rfl
example (R : Rounding 24) : binary R .div .i32 .i32 .i32 (.int (-7)) (.int 2) = .ok (some (.int (-3))) := rfl
example (R : Rounding 24) :
    binary R .div .i32 .i32 .u32 (.int (-4)) (.int 2) = .ok (some (.int 2147483646)) := rfl
example (R : Rounding 24) : Typed R .i32 (.int (-4)) ∧ Typed R .u8 (.int 200) ∧ Typed R .f32 (.flt (3 / 4)) := by
  refine ⟨by simp [Typed, lo, hi], by simp [Typed, lo, hi], ?_⟩
  have := R.exact 3 (-2) (by norm_num)
  norm_num at this
  exact this
example : compare (nearestEven 24 (by norm_num)) .ge .u8 .f32 (.int 3) (.flt (5 / 2)) = .ok 1 := by
  decide +kernel
example : logicalAnd .u8 .u8 (.int 6) (.int 3) = .ok 2 ∧ logicalAnd .u32 .u32 (.int 768) (.int 768) = .ok 0 ∧
    logicalAnd .i32 .u8 (.int (-1)) (.int 200) = .ok 200 := by decide
example : ∃ sq, GoodSqrt 53 sq := ⟨_, downSqrt_good 53 (by norm_num)⟩

end Bliss.Elements
