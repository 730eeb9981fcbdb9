import Verif.Base
import Mathlib.Tactic.ByContra
import Mathlib.Tactic.Linarith
import Mathlib.Tactic.Ring
import Mathlib.Algebra.BigOperators.Group.List.Basic

/-!
# Data type names and element counts (C72, C73)

Models `bland::ndarray::datatype::datatype(std::string_view)` (bland/bland/ndarray.cpp lines
22-64) and `bland::ndarray::numel` (bland/bland/ndarray.cpp lines 207-210).
-/

namespace Bliss.Types

/-- `DLDataTypeCode` values in use (dlpack.h). -/
inductive Code
  | int | uint | float
  deriving DecidableEq, Repr

/-- `DLDataType`: code, bits and lanes. -/
structure Dtype where
  code : Code
  bits : Nat
  lanes : Nat
  deriving DecidableEq, Repr

/-- ndarray.cpp lines 22-64. `junk` is what the uninitialised members hold: a name that matches no
branch leaves them as they are. -/
def ofString (s : String) (junk : Dtype) : Dtype :=
  if s = "float" ∨ s = "float32" then ⟨.float, 32, 1⟩
  else if s = "double" ∨ s = "float64" then ⟨.float, 64, 1⟩
  else if s = "int" ∨ s = "int64" then ⟨.int, 64, 1⟩
  else if s = "int32" then ⟨.int, 32, 1⟩
  else if s = "int16" then ⟨.int, 16, 1⟩
  else if s = "int8" then ⟨.int, 8, 1⟩
  else if s = "uint" ∨ s = "uint64" then ⟨.uint, 64, 1⟩
  else if s = "uint32" then ⟨.uint, 32, 1⟩
  else if s = "uint16" then ⟨.uint, 16, 1⟩
  else if s = "uint8" then ⟨.uint, 8, 1⟩
  else junk

/-- Specification: what each name denotes. -/
def names : List (String × Dtype) :=
  [("float", ⟨.float, 32, 1⟩), ("float32", ⟨.float, 32, 1⟩), ("double", ⟨.float, 64, 1⟩),
   ("float64", ⟨.float, 64, 1⟩), ("int", ⟨.int, 64, 1⟩), ("int64", ⟨.int, 64, 1⟩),
   ("int32", ⟨.int, 32, 1⟩), ("int16", ⟨.int, 16, 1⟩), ("int8", ⟨.int, 8, 1⟩),
   ("uint", ⟨.uint, 64, 1⟩), ("uint64", ⟨.uint, 64, 1⟩), ("uint32", ⟨.uint, 32, 1⟩),
   ("uint16", ⟨.uint, 16, 1⟩), ("uint8", ⟨.uint, 8, 1⟩)]

/-- **C72**, the part that holds: every known name gives its type, whatever was in memory before.
Missing: other names are not rejected (`C72_unknown_name_indeterminate`). -/
theorem C72_known_names_partial (s : String) (d : Dtype) (h : (s, d) ∈ names) (junk : Dtype) :
    ofString s junk = d := by
  simp only [names, List.mem_cons, Prod.mk.injEq, List.not_mem_nil, or_false] at h
  rcases h with ⟨rfl, rfl⟩ | ⟨rfl, rfl⟩ | ⟨rfl, rfl⟩ | ⟨rfl, rfl⟩ | ⟨rfl, rfl⟩ | ⟨rfl, rfl⟩ |
    ⟨rfl, rfl⟩ | ⟨rfl, rfl⟩ | ⟨rfl, rfl⟩ | ⟨rfl, rfl⟩ | ⟨rfl, rfl⟩ | ⟨rfl, rfl⟩ | ⟨rfl, rfl⟩ |
    ⟨rfl, rfl⟩ <;> rfl

/-- **C72** fails: every other name is accepted and the type is whatever the memory held. -/
theorem C72_unknown_name_indeterminate (s : String) (h : ∀ d, (s, d) ∉ names) (junk : Dtype) :
    ofString s junk = junk := by
  have hne : ∀ p ∈ names, s ≠ p.1 := by
    rintro ⟨n, d⟩ hp rfl; exact h d hp
  simp only [names, List.mem_cons, List.not_mem_nil, or_false, forall_eq_or_imp, forall_eq] at hne
  obtain ⟨h1, h2, h3, h4, h5, h6, h7, h8, h9, h10, h11, h12, h13, h14⟩ := hne
  simp [ofString, h1, h2, h3, h4, h5, h6, h7, h8, h9, h10, h11, h12, h13, h14]

/-- Concrete case: `complex64` is no name. -/
example (junk : Dtype) : ofString "complex64" junk = junk :=
  C72_unknown_name_indeterminate _ (fun d h => by simp [names] at h) junk

/-! ## Number of elements -/

/-- Conversion to `int`. -/
def wrap32 (x : Int) : Int := (x + 2 ^ 31) % 2 ^ 32 - 2 ^ 31

/-- ndarray.cpp lines 207-210: `std::accumulate` with the initial value `1`, an `int`, so that the
accumulator is an `int` although the products are 64-bit. Overflow of such a product is
undefined. -/
def numelFrom : Int → List Int → Outcome Int
  | acc, [] => .ok acc
  | acc, d :: dims =>
    if -2 ^ 63 ≤ acc * d ∧ acc * d < 2 ^ 63 then numelFrom (wrap32 (acc * d)) dims else .ub

/-- ndarray.cpp lines 207-210. -/
def numel (shape : List Int) : Outcome Int := numelFrom 1 shape

/-- Specification: the number of elements. -/
def count (shape : List Int) : Int := shape.prod

theorem wrap32_id {x : Int} (h : -2 ^ 31 ≤ x) (h' : x < 2 ^ 31) : wrap32 x = x := by
  unfold wrap32; omega

theorem wrap32_range (x : Int) : -2 ^ 31 ≤ wrap32 x ∧ wrap32 x < 2 ^ 31 := by
  unfold wrap32; omega

theorem numelFrom_range : ∀ (dims : List Int) (acc n : Int), -2 ^ 31 ≤ acc → acc < 2 ^ 31 →
    numelFrom acc dims = .ok n → -2 ^ 31 ≤ n ∧ n < 2 ^ 31
  | [], acc, n, h1, h2, h => by cases h; exact ⟨h1, h2⟩
  | d :: dims, acc, n, h1, h2, h => by
    unfold numelFrom at h
    split at h
    · exact numelFrom_range dims _ n (wrap32_range _).1 (wrap32_range _).2 h
    · cases h

theorem numelFrom_ok : ∀ (dims : List Int) (acc : Int), 0 < acc → (∀ d ∈ dims, 0 < d) →
    acc * dims.prod < 2 ^ 31 → numelFrom acc dims = .ok (acc * dims.prod)
  | [], acc, _, _, _ => by simp [numelFrom]
  | d :: dims, acc, h0, hd, hlt => by
    have hd0 : 0 < d := hd d (by simp)
    have hpos : ∀ (l : List Int), (∀ d ∈ l, 0 < d) → 0 < l.prod := by
      intro l
      induction l with
      | nil => simp
      | cons a l ih => intro h; simp only [List.prod_cons]; exact Int.mul_pos (h a (by simp)) (ih (fun x hx => h x (by simp [hx])))
    have hp := hpos dims (fun x hx => hd x (by simp [hx]))
    have h1 : 0 < acc * d := Int.mul_pos h0 hd0
    have hassoc : acc * (d :: dims).prod = (acc * d) * dims.prod := by
      simp only [List.prod_cons]; ring
    rw [hassoc] at hlt ⊢
    have h2 : acc * d ≤ (acc * d) * dims.prod := le_mul_of_one_le_right h1.le (by omega)
    unfold numelFrom
    rw [if_pos ⟨by omega, by omega⟩, wrap32_id (by omega) (by omega)]
    exact numelFrom_ok dims _ h1 (fun x hx => hd x (by simp [hx])) hlt

/-- **C73**, the part that holds: for a shape without empty dimensions and with fewer than `2^31`
elements, `numel` is the number of elements. -/
theorem C73_numel_partial (shape : List Int) (hd : ∀ d ∈ shape, 0 < d) (hn : count shape < 2 ^ 31) :
    numel shape = .ok (count shape) := by
  have := numelFrom_ok shape 1 (by norm_num) hd (by simpa [count] using hn)
  simpa [numel, count] using this

/-- **C73** fails for every array of `2^31` or more elements: `numel` never returns their number. -/
theorem C73_large_arrays_miscounted (shape : List Int) (hn : 2 ^ 31 ≤ count shape) :
    numel shape ≠ .ok (count shape) := by
  intro h
  have := numelFrom_range shape 1 _ (by norm_num) (by norm_num) h
  omega

theorem numelFrom_wraps : ∀ (dims : List Int) (acc n : Int), numelFrom acc dims = .ok n →
    ∃ k : Int, n = acc * dims.prod + k * 2 ^ 32
  | [], acc, n, h => by
    obtain rfl := Outcome.ok.inj h
    exact ⟨0, by simp⟩
  | d :: dims, acc, n, h => by
    unfold numelFrom at h
    split at h
    · obtain ⟨k, e⟩ := numelFrom_wraps dims _ n h
      obtain ⟨q, hq⟩ : ∃ q : Int, wrap32 (acc * d) = acc * d + q * 2 ^ 32 :=
        ⟨-((acc * d + 2 ^ 31) / 2 ^ 32), by unfold wrap32; omega⟩
      exact ⟨q * dims.prod + k, by rw [e, hq, List.prod_cons]; ring⟩
    · cases h

/-- What `numel` returns for an array of any size whose dimensions are below `2^31`: the number of
elements modulo `2^32`, as a signed number. -/
theorem C73_numel_modulo (shape : List Int) (hd : ∀ d ∈ shape, 0 ≤ d ∧ d < 2 ^ 31) :
    ∃ n k : Int, numel shape = .ok n ∧ -2 ^ 31 ≤ n ∧ n < 2 ^ 31 ∧ n = count shape + k * 2 ^ 32 := by
  have hok : ∀ (dims : List Int) (acc : Int), -2 ^ 31 ≤ acc → acc < 2 ^ 31 →
      (∀ d ∈ dims, 0 ≤ d ∧ d < 2 ^ 31) → ∃ n, numelFrom acc dims = .ok n := by
    intro dims
    induction dims with
    | nil => exact fun acc _ _ _ => ⟨acc, rfl⟩
    | cons d dims ih =>
      intro acc h1 h2 hd
      obtain ⟨d0, d1⟩ := hd d (by simp)
      unfold numelFrom
      rw [if_pos (by constructor <;> nlinarith)]
      exact ih _ (wrap32_range _).1 (wrap32_range _).2 fun x hx => hd x (by simp [hx])
  obtain ⟨n, hn⟩ := hok shape 1 (by norm_num) (by norm_num) hd
  obtain ⟨k, hk⟩ := numelFrom_wraps shape 1 n hn
  obtain ⟨h1, h2⟩ := numelFrom_range shape 1 n (by norm_num) (by norm_num) hn
  exact ⟨n, k, hn, h1, h2, by rw [hk, one_mul]; rfl⟩

/-- Larger dimensions can overflow the product itself, which is undefined: the smallest product that
does is `2^63`. -/
theorem C73_overflow (d : Int) (h0 : 0 < d) (h1 : d < 2 ^ 63) :
    numel [2, d] = .ub ↔ 2 ^ 62 ≤ d := by
  have hw : wrap32 2 = 2 := by decide
  simp only [numel, numelFrom, one_mul, hw]
  rw [if_pos (by norm_num)]
  constructor
  · intro h
    by_contra hc
    rw [if_pos (by omega)] at h
    cases h
  · intro h
    rw [if_neg (by omega)]

example : ∃ n k : Int, numel [3, 65536, 65536] = .ok n ∧ -2 ^ 31 ≤ n ∧ n < 2 ^ 31 ∧
    n = count [3, 65536, 65536] + k * 2 ^ 32 := C73_numel_modulo _ (by decide)

/-- A 65536 by 65536 array counts as empty. -/
theorem C73_counterexample : numel [65536, 65536] = .ok 0 := by decide

/-- Concrete case for `C73_numel_partial`. -/
example : numel [16, 1, 1048576] = .ok 16777216 := C73_numel_partial _ (by decide) (by decide)

end Bliss.Types
