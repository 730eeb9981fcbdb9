import Verif.Float.Rounding
import Mathlib.Tactic.IntervalCases
import Mathlib.Data.List.Basic

/-!
# Decimal text

How fmt prints integers and fixed-point numbers, and, for the specifications, how decimal text is
read.
-/

namespace Bliss.File

open Bliss.Float

/-! ## Reading (specification) -/

/-- The value of a decimal digit. -/
def digitVal (c : Char) : Option Nat :=
  if '0' ≤ c ∧ c ≤ '9' then some (c.toNat - 48) else none

/-- One more digit. -/
def readStep (acc : Option Nat) (c : Char) : Option Nat :=
  acc.bind fun a => (digitVal c).map fun d => 10 * a + d

/-- A non-empty string of digits as a number. -/
def readNat (s : List Char) : Option Nat :=
  if s = [] then none else s.foldl readStep (some 0)

/-- Digits with an optional minus sign. -/
def readInt : List Char → Option Int
  | '-' :: s => (readNat s).map fun (n : Nat) => -(n : Int)
  | s => (readNat s).map fun (n : Nat) => (n : Int)

/-- `iii.fff` or `iii`. -/
def readPos (s : List Char) : Option ℚ :=
  match s.dropWhile (· ≠ '.') with
  | [] => (readNat s).map fun (n : Nat) => (n : ℚ)
  | _ :: f => (readNat (s.takeWhile (· ≠ '.'))).bind fun (a : Nat) =>
      (readNat f).map fun (b : Nat) => (a : ℚ) + b / 10 ^ f.length

/-- A decimal number with an optional minus sign. -/
def readDec : List Char → Option ℚ
  | '-' :: s => (readPos s).map fun q => -q
  | s => readPos s

/-- The pieces of a text between the separators `c`. -/
def splitOn (c : Char) : List Char → List (List Char)
  | [] => [[]]
  | x :: s =>
    if x = c then [] :: splitOn c s
    else match splitOn c s with
      | [] => [[x]]
      | p :: ps => (x :: p) :: ps

/-! ## Writing -/

/-- The character of a digit. -/
def digitChar (n : Nat) : Char := Char.ofNat (48 + n)

/-- The digits of `n`, at most `f` of them. -/
def natDigits : Nat → Nat → List Char
  | 0, _ => []
  | f + 1, n => if n < 10 then [digitChar n] else natDigits f (n / 10) ++ [digitChar (n % 10)]

/-- fmt `{}` of a non-negative integer. -/
def natStr (n : Nat) : List Char := natDigits (n + 1) n

/-- fmt `{}` of an integer. -/
def intStr (n : Int) : List Char :=
  if n < 0 then '-' :: natStr n.natAbs else natStr n.natAbs

/-- Fill up to width `w` on the left. -/
def padLeft (w : Nat) (c : Char) (s : List Char) : List Char :=
  List.replicate (w - s.length) c ++ s

/-- fmt `{:.pf}` with `p ≥ 1` of a finite number: rounded to the nearest multiple of `10^-p`, ties to
even. Negative zero is not modelled. -/
def fixedStr (p : Nat) (x : ℚ) : List Char :=
  let n := (nearInt (|x| * 10 ^ p)).toNat
  (if x < 0 then ['-'] else []) ++ natStr (n / 10 ^ p) ++ '.' :: padLeft p '0' (natStr (n % 10 ^ p))

/-! ## Lemmas -/

theorem digitVal_digitChar {n : Nat} (h : n < 10) : digitVal (digitChar n) = some n := by
  interval_cases n <;> decide

/-- A digit. -/
def IsDigit (c : Char) : Prop := '0' ≤ c ∧ c ≤ '9'

instance (c : Char) : Decidable (IsDigit c) := by unfold IsDigit; infer_instance

theorem isDigit_digitChar {n : Nat} (h : n < 10) : IsDigit (digitChar n) := by
  interval_cases n <;> decide

theorem natDigits_ne_nil (f n : Nat) (h : n < f) : natDigits f n ≠ [] := by
  cases f with
  | zero => omega
  | succ f => unfold natDigits; split <;> simp

theorem natStr_ne_nil (n : Nat) : natStr n ≠ [] := natDigits_ne_nil _ _ (by omega)

theorem natDigits_digit (f n : Nat) : ∀ c ∈ natDigits f n, IsDigit c := by
  induction f generalizing n with
  | zero => simp [natDigits]
  | succ f ih =>
    unfold natDigits
    split
    · rename_i h
      intro c hc
      rw [List.mem_singleton] at hc
      subst hc
      exact isDigit_digitChar h
    · intro c hc
      rw [List.mem_append, List.mem_singleton] at hc
      rcases hc with hc | rfl
      · exact ih _ _ hc
      · exact isDigit_digitChar (Nat.mod_lt _ (by norm_num))

theorem natStr_digit (n : Nat) : ∀ c ∈ natStr n, IsDigit c := natDigits_digit _ _

theorem natDigits_read (f n : Nat) (h : n < f) :
    (natDigits f n).foldl readStep (some 0) = some n := by
  induction f generalizing n with
  | zero => omega
  | succ f ih =>
    unfold natDigits
    split
    · rename_i hn
      simp [readStep, digitVal_digitChar hn]
    · rename_i hn
      rw [List.foldl_append, ih _ (by omega)]
      simp only [List.foldl_cons, List.foldl_nil, readStep, Option.bind_some,
        digitVal_digitChar (Nat.mod_lt n (by norm_num : 10 > 0)), Option.map_some]
      congr 1
      omega

theorem readNat_natStr (n : Nat) : readNat (natStr n) = some n := by
  unfold readNat
  rw [if_neg (natStr_ne_nil n)]
  exact natDigits_read _ _ (by omega)

theorem zeros_read (k : Nat) (s : List Char) :
    (List.replicate k '0' ++ s).foldl readStep (some 0) = s.foldl readStep (some 0) := by
  induction k with
  | zero => rfl
  | succ k ih =>
    rw [List.replicate_succ, List.cons_append, List.foldl_cons]
    have : readStep (some 0) '0' = some 0 := by decide
    rw [this, ih]

theorem readNat_padLeft (w n : Nat) : readNat (padLeft w '0' (natStr n)) = some n := by
  have h := readNat_natStr n
  unfold readNat at *
  rw [if_neg (natStr_ne_nil n)] at h
  rw [if_neg (by simp [padLeft, natStr_ne_nil])]
  unfold padLeft
  rw [zeros_read, h]

theorem padLeft_digit (w n : Nat) : ∀ c ∈ padLeft w '0' (natStr n), IsDigit c := by
  intro c hc
  unfold padLeft at hc
  rw [List.mem_append, List.mem_replicate] at hc
  rcases hc with ⟨_, rfl⟩ | hc
  · decide
  · exact natStr_digit _ _ hc

theorem natDigits_length (f n p : Nat) (hp : 0 < p) (h : n < 10 ^ p) :
    (natDigits f n).length ≤ p := by
  induction f generalizing n p with
  | zero => simp [natDigits]
  | succ f ih =>
    unfold natDigits
    split
    · show 1 ≤ p
      omega
    · rename_i hn
      obtain ⟨q, rfl⟩ : ∃ q, p = q + 1 := ⟨p - 1, by omega⟩
      have hq : 0 < q := by
        rcases Nat.eq_zero_or_pos q with rfl | hq
        · simp at h; omega
        · exact hq
      have := ih (n / 10) q hq (by rw [pow_succ] at h; omega)
      simp
      omega

theorem padLeft_length (p n : Nat) (hp : 0 < p) (h : n < 10 ^ p) :
    (padLeft p '0' (natStr n)).length = p := by
  have : (natStr n).length ≤ p := natDigits_length _ n p hp h
  simp [padLeft]
  omega

theorem isDigit_ne {c d : Char} (h : IsDigit c) (hd : ¬ IsDigit d) : c ≠ d := by
  rintro rfl
  exact hd h

theorem takeWhile_digits {s t : List Char} (h : ∀ c ∈ s, IsDigit c) :
    (s ++ '.' :: t).takeWhile (· ≠ '.') = s ∧ (s ++ '.' :: t).dropWhile (· ≠ '.') = '.' :: t := by
  induction s with
  | nil => simp
  | cons c s ih =>
    have hc : c ≠ '.' := isDigit_ne (h c (by simp)) (by decide)
    have := ih (fun d hd => h d (by simp [hd]))
    simp only [ne_eq, decide_not] at this ⊢
    simp [hc, this]

/-- The number behind a fixed-point text. -/
def fixedVal (p : Nat) (x : ℚ) : ℚ :=
  (if x < 0 then -1 else 1) * ((nearInt (|x| * 10 ^ p)).toNat / 10 ^ p)

theorem readPos_fixed (p n : Nat) (hp : 0 < p) :
    readPos (natStr (n / 10 ^ p) ++ '.' :: padLeft p '0' (natStr (n % 10 ^ p))) =
      some ((n : ℚ) / 10 ^ p) := by
  have hpos : 0 < 10 ^ p := by positivity
  have h := takeWhile_digits (t := padLeft p '0' (natStr (n % 10 ^ p))) (natStr_digit (n / 10 ^ p))
  unfold readPos
  rw [h.2, h.1]
  simp only [readNat_natStr, readNat_padLeft, Option.bind_some, Option.map_some]
  rw [padLeft_length p _ hp (Nat.mod_lt _ hpos)]
  congr 1
  have e : (n : ℚ) = ((10 ^ p * (n / 10 ^ p) + n % 10 ^ p : Nat) : ℚ) := by
    rw [Nat.div_add_mod]
  rw [e]
  push_cast
  field_simp

theorem readDec_fixed (p : Nat) (hp : 0 < p) (x : ℚ) :
    readDec (fixedStr p x) = some (fixedVal p x) := by
  unfold fixedStr fixedVal
  by_cases hx : x < 0
  · simp only [hx, if_true, List.cons_append, List.nil_append, List.append_assoc, readDec]
    rw [readPos_fixed _ _ hp]
    simp
  · simp only [hx, if_false, List.nil_append, List.append_assoc]
    have h := readPos_fixed p (nearInt (|x| * 10 ^ p)).toNat hp
    obtain ⟨c, s, hs⟩ := List.exists_cons_of_ne_nil
      (natStr_ne_nil ((nearInt (|x| * 10 ^ p)).toNat / 10 ^ p))
    have hc : IsDigit c := natStr_digit _ c (by rw [hs]; simp)
    have hc' : c ≠ '-' := isDigit_ne hc (by decide)
    rw [hs, List.cons_append] at h ⊢
    unfold readDec
    split
    · rename_i heq
      rw [List.cons.injEq] at heq
      exact absurd heq.1 hc'
    · rw [h, one_mul]

/-- The text is within half a unit in the last place. -/
theorem fixedVal_err (p : Nat) (x : ℚ) : |fixedVal p x - x| ≤ 1 / (2 * 10 ^ p) := by
  have hp : (0 : ℚ) < 10 ^ p := by positivity
  have h0 : 0 ≤ |x| * 10 ^ p := by positivity
  have hn : 0 ≤ nearInt (|x| * 10 ^ p) := by
    have := nearInt_mono h0
    rwa [show (0 : ℚ) = ((0 : ℤ) : ℚ) by norm_num, nearInt_int] at this
  have he := nearInt_err (|x| * 10 ^ p)
  have hc : (((nearInt (|x| * 10 ^ p)).toNat : Nat) : ℚ) = (nearInt (|x| * 10 ^ p) : ℚ) := by
    have := Int.toNat_of_nonneg hn
    exact_mod_cast this
  unfold fixedVal
  rw [hc]
  generalize (nearInt (|x| * 10 ^ p) : ℚ) = n at *
  have key : |n / 10 ^ p - abs x| ≤ 1 / (2 * 10 ^ p) := by
    have e : n / 10 ^ p - abs x = (n - abs x * 10 ^ p) / 10 ^ p := by field_simp
    rw [e, abs_div, abs_of_pos hp, div_le_iff₀ hp]
    refine he.trans (le_of_eq ?_)
    field_simp
  by_cases hx : x < 0
  · rw [if_pos hx]
    rw [abs_of_neg hx] at key
    have : -1 * (n / 10 ^ p) - x = -(n / 10 ^ p - -x) := by ring
    rw [this, abs_neg]
    exact key
  · rw [if_neg hx, one_mul]
    rwa [abs_of_nonneg (not_lt.1 hx)] at key

/-- A number with at most `p` decimals is printed exactly. -/
theorem fixedVal_exact (p : Nat) (x : ℚ) (m : ℤ) (h : x * 10 ^ p = m) : fixedVal p x = x := by
  have hp : (0 : ℚ) < 10 ^ p := by positivity
  have e : |x| * 10 ^ p = ((m.natAbs : ℤ) : ℚ) := by
    have : |x| * 10 ^ p = |x * 10 ^ p| := by rw [abs_mul, abs_of_pos hp]
    rw [this, h, Int.natCast_natAbs]
    push_cast
    rfl
  unfold fixedVal
  rw [e, nearInt_int]
  have e2 : (((m.natAbs : ℤ).toNat : Nat) : ℚ) = |x| * 10 ^ p := by
    rw [e, Int.toNat_natCast, Int.cast_natCast]
  rw [e2]
  have e3 : |x| * 10 ^ p / 10 ^ p = |x| := by field_simp
  rw [e3]
  by_cases hx : x < 0
  · rw [if_pos hx, abs_of_neg hx]; ring
  · rw [if_neg hx, abs_of_nonneg (not_lt.1 hx), one_mul]

theorem readInt_intStr (n : Int) : readInt (intStr n) = some n := by
  unfold intStr
  by_cases hn : n < 0
  · simp only [hn, if_true, readInt, readNat_natStr, Option.map_some]
    congr 1
    omega
  · simp only [hn, if_false]
    obtain ⟨c, s, hs⟩ := List.exists_cons_of_ne_nil (natStr_ne_nil n.natAbs)
    have hc : IsDigit c := natStr_digit _ c (by rw [hs]; simp)
    have hc' : c ≠ '-' := isDigit_ne hc (by decide)
    have h := readNat_natStr n.natAbs
    rw [hs] at h ⊢
    unfold readInt
    split
    · rename_i heq
      rw [List.cons.injEq] at heq
      exact absurd heq.1 hc'
    · rw [h]
      simp only [Option.map_some]
      congr 1
      omega

/-! ### Splitting -/

theorem splitOn_ne_nil (c : Char) (s : List Char) : splitOn c s ≠ [] := by
  cases s with
  | nil => simp [splitOn]
  | cons x s =>
    unfold splitOn
    split
    · simp
    · split <;> simp

theorem splitOn_cons {c : Char} {f s : List Char} (h : c ∉ f) :
    splitOn c (f ++ c :: s) = f :: splitOn c s := by
  induction f with
  | nil => simp [splitOn]
  | cons x f ih =>
    have hx : x ≠ c := by rintro rfl; simp at h
    have := ih (by intro hc; exact h (by simp [hc]))
    rw [List.cons_append, splitOn, if_neg hx, this]

theorem splitOn_last {c : Char} {f : List Char} (h : c ∉ f) : splitOn c f = [f] := by
  induction f with
  | nil => simp [splitOn]
  | cons x f ih =>
    have hx : x ≠ c := by rintro rfl; simp at h
    have := ih (by intro hc; exact h (by simp [hc]))
    rw [splitOn, if_neg hx, this]

end Bliss.File
