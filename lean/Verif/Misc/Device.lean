import Verif.Base
import Mathlib.Tactic.ByContra
import Mathlib.Tactic.Linarith

/-!
# Device strings (C58)

Models `bland::ndarray::dev::dev(std::string_view)`, bland/bland/ndarray.cpp lines 99-124, with
the part of `std::stoi` it relies on.
-/

namespace Bliss.Device

/-- `DLDeviceType` values the constructor can choose (dlpack.h). -/
inductive Kind
  | cpu | cuda | cudaManaged | cudaHost
  deriving DecidableEq, Repr

/-- `bland::ndarray::dev`: device type and number. -/
structure Dev where
  kind : Kind
  id : Int
  deriving DecidableEq, Repr

/-- `isspace` in the C locale. -/
def isSpace (c : Char) : Bool :=
  c = ' ' || c = '\t' || c = '\n' || c = '\r' || c = '\x0b' || c = '\x0c'

/-- Value of a decimal digit. -/
def digit? (c : Char) : Option Nat :=
  if '0' ≤ c ∧ c ≤ '9' then some (c.toNat - '0'.toNat) else none

/-- The longest prefix of digits. -/
def digits : List Char → List Nat
  | [] => []
  | c :: rest => match digit? c with
    | some d => d :: digits rest
    | none => []

/-- Value of a numeral. -/
def numeral (ds : List Nat) : Nat := ds.foldl (fun v d => 10 * v + d) 0

/-- `std::stoi`: skip white space, an optional sign, then as many digits as there are; text after
them is ignored. No digit: `invalid_argument`. Outside `int`: `out_of_range`. -/
def stoi (s : List Char) : Outcome Int :=
  let s := s.dropWhile isSpace
  let neg := s.head? = some '-'
  let s := if s.head? = some '-' ∨ s.head? = some '+' then s.tail else s
  let ds := digits s
  if ds = [] then .throws .invalidArgument
  else
    let v : Int := if neg then -(numeral ds : Int) else numeral ds
    if -2 ^ 31 ≤ v ∧ v < 2 ^ 31 then .ok v else .throws .outOfRange

/-- The optional `:number` after a device name of `len` characters (ndarray.cpp lines 105-108,
111-114, 117-120). -/
def idAfter (s : List Char) (len : Nat) : Outcome Int :=
  if len < s.length ∧ s[len]? = some ':' then stoi (s.drop (len + 1)) else .ok 0

/-- ndarray.cpp lines 99-124, branch by branch. -/
def parse (s : List Char) : Outcome Dev := do
  if s = "cpu".toList then
    pure ⟨.cpu, 0⟩
  else if s.take 4 = "cuda".toList then
    let id ← idAfter s 4
    pure ⟨.cuda, id⟩
  else if s.take 11 = "cudamanaged".toList then
    let id ← idAfter s 11
    pure ⟨.cudaManaged, id⟩
  else if s.take 8 = "cudahost".toList then
    let id ← idAfter s 8
    pure ⟨.cudaHost, id⟩
  else .throws .runtimeError

/-! ## Specification: the documented device names -/

/-- The characters of a decimal numeral. -/
def IsNumeral (s : List Char) : Prop := s ≠ [] ∧ ∀ c ∈ s, '0' ≤ c ∧ c ≤ '9'

/-- Its value, as written in the decimal system. -/
def valueOf (s : List Char) : Nat := s.foldl (fun v c => 10 * v + (c.toNat - 48)) 0

/-- Names of the devices. -/
def Kind.name : Kind → List Char
  | .cpu => "cpu".toList
  | .cuda => "cuda".toList
  | .cudaManaged => "cudamanaged".toList
  | .cudaHost => "cudahost".toList

/-- `s` denotes device `d`: the name alone, or the name of a cuda device, a colon and its number. -/
inductive Denotes : List Char → Dev → Prop
  | plain (k : Kind) : Denotes k.name ⟨k, 0⟩
  | numbered (k : Kind) (n : List Char) (hk : k ≠ .cpu) (hn : IsNumeral n)
      (hv : valueOf n < 2 ^ 31) : Denotes (k.name ++ ':' :: n) ⟨k, valueOf n⟩

/-! ## Proofs -/

theorem digits_numeral : ∀ (s : List Char), (∀ c ∈ s, '0' ≤ c ∧ c ≤ '9') →
    digits s = s.map (fun c => c.toNat - 48)
  | [], _ => rfl
  | c :: rest, h => by
    have hc := h c (by simp)
    simp only [digits, digit?, hc, and_self, if_true, List.map_cons]
    rw [digits_numeral rest (fun c hc => h c (by simp [hc]))]
    rfl

theorem not_space_of_digit {c : Char} (h : '0' ≤ c ∧ c ≤ '9') : isSpace c = false := by
  have h1 : 48 ≤ c.toNat := h.1
  simp only [isSpace, Bool.or_eq_false_iff, decide_eq_false_iff_not]
  refine ⟨⟨⟨⟨⟨?_, ?_⟩, ?_⟩, ?_⟩, ?_⟩, ?_⟩ <;>
  · rintro rfl
    revert h1; decide

theorem stoi_numeral {n : List Char} (h : IsNumeral n) :
    stoi n = if valueOf n < 2 ^ 31 then .ok (valueOf n : Int) else .throws .outOfRange := by
  obtain ⟨hne, hd⟩ := h
  obtain ⟨c, rest, rfl⟩ := List.exists_cons_of_ne_nil hne
  have hc := hd c (by simp)
  have h1 : (c :: rest).dropWhile isSpace = c :: rest := by
    rw [List.dropWhile_cons_of_neg]; rw [not_space_of_digit hc]; decide
  have hm : c ≠ '-' := by
    rintro rfl; revert hc; decide
  have hp : c ≠ '+' := by
    rintro rfl; revert hc; decide
  have h2 : digits (c :: rest) ≠ [] := by
    rw [digits_numeral _ hd]; simp
  have h3 : numeral (digits (c :: rest)) = valueOf (c :: rest) := by
    rw [digits_numeral _ hd, numeral, List.foldl_map]; rfl
  simp only [stoi, h1, List.head?_cons, Option.some.injEq, hm, hp, or_self, if_false, h2, h3]
  generalize valueOf (c :: rest) = v
  by_cases hv : v < 2 ^ 31
  · rw [if_pos hv, if_pos (by omega)]
  · rw [if_neg hv, if_neg (by omega)]

theorem parse_cuda_colon (n : List Char) :
    parse ("cuda".toList ++ ':' :: n) = (stoi n >>= fun id => pure ⟨.cuda, id⟩) := by
  have h1 : "cuda".toList ++ ':' :: n ≠ "cpu".toList := by simp
  have h2 : ("cuda".toList ++ ':' :: n).take 4 = "cuda".toList := by simp
  have h3 : idAfter ("cuda".toList ++ ':' :: n) 4 = stoi n := by
    have : ("cuda".toList ++ ':' :: n).drop 5 = n := by simp
    rw [idAfter, if_pos (by simp), this]
  simp only [parse, if_neg h1, if_pos h2, h3]

/-- **C58**, the part that holds: `cpu`, `cuda` and `cuda:n` give the device they denote. Missing:
`cudamanaged` and `cudahost` (see `C58_other_cuda_names_misread`). -/
theorem C58_documented_names_partial {s : List Char} {d : Dev} (h : Denotes s d)
    (hk : d.kind = .cpu ∨ d.kind = .cuda) : parse s = .ok d := by
  cases h with
  | plain k => rcases hk with rfl | rfl <;> rfl
  | numbered k n h0 hn hv =>
    have hk' : k = .cuda := by rcases hk with h | h; exact absurd h h0; exact h
    subst hk'
    have h := parse_cuda_colon n
    rw [stoi_numeral hn, if_pos hv] at h
    exact h

/-- **C58**, rejection: a string that is not `cpu` and does not begin with `cuda` is refused. -/
theorem C58_rejects_partial {s : List Char} (h1 : s ≠ "cpu".toList)
    (h2 : s.take 4 ≠ "cuda".toList) : parse s = .throws .runtimeError := by
  have h3 : s.take 11 ≠ "cudamanaged".toList := by
    intro h
    apply h2
    have := congrArg (List.take 4) h
    rw [List.take_take] at this
    simpa using this
  have h4 : s.take 8 ≠ "cudahost".toList := by
    intro h
    apply h2
    have := congrArg (List.take 4) h
    rw [List.take_take] at this
    simpa using this
  simp only [parse, if_neg h1, if_neg h2, if_neg h3, if_neg h4]

/-- `cuda:` followed by a number too large for `int` is refused. -/
theorem C58_number_too_large {n : List Char} (hn : IsNumeral n) (hv : 2 ^ 31 ≤ valueOf n) :
    parse ("cuda".toList ++ ':' :: n) = .throws .outOfRange := by
  rw [parse_cuda_colon, stoi_numeral hn, if_neg (by omega)]; rfl

/-- After `cuda:` a number is required: text that, after white space and a sign, does not go on with a
digit is refused. -/
theorem C58_number_required {sp n : List Char} (hsp : ∀ c ∈ sp, isSpace c = true)
    (hn : ∀ c ∈ n.head?, ¬ ('0' ≤ c ∧ c ≤ '9') ∧ isSpace c = false ∧ c ≠ '-' ∧ c ≠ '+')
    (sign : List Char) (hs : sign = [] ∨ sign = ['-'] ∨ sign = ['+']) :
    parse ("cuda".toList ++ ':' :: (sp ++ sign ++ n)) = .throws .invalidArgument := by
  have hdig : digits n = [] := by
    cases n with
    | nil => rfl
    | cons c t => simp only [digits, digit?]; rw [if_neg (hn c rfl).1]
  have hdrop : ∀ l : List Char, (sp ++ l).dropWhile isSpace = l.dropWhile isSpace := by
    intro l
    rw [List.dropWhile_append_of_pos hsp]
  have key : stoi (sp ++ sign ++ n) = .throws .invalidArgument := by
    unfold stoi
    rw [List.append_assoc, hdrop]
    rcases hs with rfl | rfl | rfl
    · have h0 : ([] ++ n).dropWhile isSpace = n := by
        cases n with
        | nil => rfl
        | cons c t =>
          rw [List.nil_append, List.dropWhile_cons_of_neg]
          rw [(hn c rfl).2.1]; decide
      have h1 : ¬ (n.head? = some '-' ∨ n.head? = some '+') := by
        cases n with
        | nil => simp
        | cons c t =>
          simp only [List.head?_cons, Option.some.injEq, not_or]
          exact (hn c rfl).2.2
      rw [h0]
      simp only [if_neg h1, hdig, if_true]
    · have h0 : (['-'] ++ n).dropWhile isSpace = '-' :: n := by
        rw [List.singleton_append, List.dropWhile_cons_of_neg (by decide)]
      rw [h0]
      simp [hdig]
    · have h0 : (['+'] ++ n).dropWhile isSpace = '+' :: n := by
        rw [List.singleton_append, List.dropWhile_cons_of_neg (by decide)]
      rw [h0]
      simp [hdig]
  rw [parse_cuda_colon, key]; rfl

/-- Concrete case: `cuda: -x`. -/
example : parse "cuda: -x".toList = .throws .invalidArgument :=
  C58_number_required (sp := [' ']) (n := ['x']) (by decide) (by decide) ['-'] (by decide)

/-- **C58** fails: every string that begins with `cuda` and goes on with anything but a colon is
taken for the plain device `cuda:0`. In particular managed and pinned memory can never be asked
for, and misspelt names are not rejected. -/
theorem C58_other_cuda_names_misread (rest : List Char) (h : rest.head? ≠ some ':') :
    parse ("cuda".toList ++ rest) = .ok ⟨.cuda, 0⟩ := by
  have h1 : "cuda".toList ++ rest ≠ "cpu".toList := by simp
  have h2 : ("cuda".toList ++ rest).take 4 = "cuda".toList := by simp
  have h3 : idAfter ("cuda".toList ++ rest) 4 = .ok 0 := by
    rw [idAfter, if_neg]
    rintro ⟨_, h4⟩
    apply h
    cases rest with
    | nil => simp at h4
    | cons c t => simpa using h4
  simp only [parse, if_neg h1, if_pos h2, h3, Outcome.bind_ok, Outcome.pure_eq]

/-- No string at all yields managed or pinned host memory. -/
theorem C58_managed_and_host_unreachable (s : List Char) (d : Dev) (h : parse s = .ok d) :
    d.kind = .cpu ∨ d.kind = .cuda := by
  by_cases h1 : s = "cpu".toList
  · subst h1
    have h2 : parse "cpu".toList = .ok ⟨.cpu, 0⟩ := rfl
    rw [h2] at h; cases h; exact Or.inl rfl
  by_cases h2 : s.take 4 = "cuda".toList
  · simp only [parse, if_neg h1, if_pos h2] at h
    cases hid : idAfter s 4 with
    | ok id => rw [hid] at h; simp only [Outcome.bind_ok, Outcome.pure_eq] at h; cases h; exact Or.inr rfl
    | throws e => rw [hid] at h; cases h
    | ub => rw [hid] at h; cases h
  · rw [C58_rejects_partial h1 h2] at h; cases h

/-- **C58** fails: `cudamanaged` and `cudahost:3` are read as `cuda:0`; `cudaX` is accepted;
`cuda:1x` is device 1 and `cuda:-1` device -1. -/
theorem C58_counterexamples :
    parse "cudamanaged".toList = .ok ⟨.cuda, 0⟩ ∧ parse "cudahost:3".toList = .ok ⟨.cuda, 0⟩ ∧
    parse "cudaX".toList = .ok ⟨.cuda, 0⟩ ∧ parse "cuda:1x".toList = .ok ⟨.cuda, 1⟩ ∧
    parse "cuda:-1".toList = .ok ⟨.cuda, -1⟩ := by decide

/-- Concrete case for `C58_documented_names_partial`: `cuda:12` denotes device 12. -/
example : Denotes "cuda:12".toList ⟨.cuda, 12⟩ :=
  Denotes.numbered .cuda "12".toList (by decide) ⟨by decide, by decide⟩ (by decide)

example : parse "opencl".toList = .throws .runtimeError :=
  C58_rejects_partial (by decide) (by decide)

end Bliss.Device
