import Verif.Base
import Verif.Float.Rounding
import Verif.Misc.Arith

/-!
# Attributes of HDF5 files (C99, C100)

Models `read_data_attr` of bliss/file_types/h5_filterbank_file.cpp (lines 15-158) for the types that a
scan asks for: `double`, `int64_t` and `std::string` (bliss/core/scan.cpp lines 118-186). The HDF5
library is outside the model. What matters of it: `attr.read(dtype, p)` with the type of the attribute
itself converts nothing and copies the stored bytes to `p`.
-/

namespace Bliss.H5Attr

open Bliss.Float Bliss.Types

/-- What the bytes of an attribute stand for. `other` are strings, references and so on. -/
inductive Kind
  | int (signed : Bool) | float | other
  deriving DecidableEq, Repr

/-- An attribute with a single entry: its kind, byte order and bytes (each below 256). -/
structure Attr where
  kind : Kind
  bigEndian : Bool
  bytes : List Nat
  deriving DecidableEq, Repr

/-- The number whose bytes are `bs`, least significant first. -/
def leNat : List Nat → Nat
  | [] => 0
  | b :: bs => b + 256 * leNat bs

/-- Two's complement of `bits` bits. -/
def twos (bits n : Nat) : Int := if 2 * n < 2 ^ bits then n else (n : Int) - 2 ^ bits

/-- IEEE 754 number with `e` exponent and `m` mantissa bits; `none` is an infinity or NaN. -/
def ieee (e m n : Nat) : Option ℚ :=
  let frac := n % 2 ^ m
  let ex := n / 2 ^ m % 2 ^ e
  let sign : ℚ := if n / 2 ^ (m + e) % 2 = 1 then -1 else 1
  let bias : Int := 2 ^ (e - 1) - 1
  if ex = 2 ^ e - 1 then none
  else if ex = 0 then some (sign * (frac : ℚ) * 2 ^ (1 - bias - m))
  else some (sign * ((2 ^ m + frac : Nat) : ℚ) * 2 ^ ((ex : Int) - bias - m))

/-- A `double` in memory. -/
def double (bs : List Nat) : Option ℚ := ieee 11 52 (leNat bs)

/-- **Specification.** The number that an attribute stores, whatever its width and byte order. -/
def Attr.value (a : Attr) : Option ℚ :=
  let n := leNat (if a.bigEndian then a.bytes.reverse else a.bytes)
  match a.kind with
  | .int true => some (twos (8 * a.bytes.length) n : Int)
  | .int false => some (n : ℚ)
  | .float =>
    if a.bytes.length = 4 then ieee 8 23 n
    else if a.bytes.length = 8 then ieee 11 52 n
    else none
  | .other => none

/-- The types that h5_filterbank_file.cpp lines 23-78 recognise on a little-endian machine:
`int16_t … uint64_t`, `float` and `double`. -/
def Attr.native (a : Attr) : Bool :=
  !a.bigEndian && match a.kind with
    | .int _ => a.bytes.length = 2 || a.bytes.length = 4 || a.bytes.length = 8
    | .float => a.bytes.length = 4 || a.bytes.length = 8
    | .other => false

/-- `T val; attr.read(dtype, &val)` for an 8-byte `T` (lines 79-83): the bytes of the attribute
followed by what was there. More than 8 bytes write past the variable. -/
def rawRead (a : Attr) (junk : List Nat) : Outcome (List Nat) :=
  if a.bytes.length > 8 then .ub else .ok (a.bytes ++ junk.drop a.bytes.length)

/-- `read_data_attr<double>` (lines 16-88). `none` as result is an infinity or NaN. -/
def readDouble (a : Option Attr) (junk : List Nat) : Outcome (Option ℚ) :=
  match a with
  | none => .throws .invalidArgument
  | some a =>
    if a.native then
      match a.kind with
      | .int _ => .ok (a.value.map (rne 53))
      | _ => .ok a.value
    else do
      let bs ← rawRead a junk
      pure (double bs)

/-- `static_cast<int64_t>` of an integer. -/
def wrap64 (n : Int) : Int := (n + 2 ^ 63) % 2 ^ 64 - 2 ^ 63

/-- `read_data_attr<int64_t>` (lines 16-88). Converting a float out of range is undefined. -/
def readInt64 (a : Option Attr) (junk : List Nat) : Outcome Int :=
  match a with
  | none => .throws .invalidArgument
  | some a =>
    if a.native then
      match a.value with
      | none => .ub
      | some v =>
        match a.kind with
        | .int _ => .ok (wrap64 ⌊v⌋)
        | _ =>
          if -2 ^ 63 ≤ truncZ v ∧ truncZ v < 2 ^ 63 then .ok (truncZ v) else .ub
    else do
      let bs ← rawRead a junk
      pure (twos 64 (leNat bs))

/-! ## C99: numbers -/

theorem twos_range {bits n : Nat} (h : n < 2 ^ bits) :
    -2 ^ bits ≤ 2 * twos bits n ∧ 2 * twos bits n < 2 ^ bits := by
  have h' : (n : Int) < 2 ^ bits := by exact_mod_cast h
  unfold twos
  split
  · next h1 =>
    have : 2 * (n : Int) < 2 ^ bits := by exact_mod_cast h1
    omega
  · next h1 =>
    have : (2 : Int) ^ bits ≤ 2 * (n : Int) := by exact_mod_cast not_lt.1 h1
    omega

/-- **C99 (floating point).** A `float` or `double` attribute is read by `read_data_attr<double>` as
the number it stores. -/
theorem C99_float_as_double_partial (a : Attr) (hk : a.kind = .float) (hb : a.bigEndian = false)
    (hw : a.bytes.length = 4 ∨ a.bytes.length = 8) (junk : List Nat) :
    readDouble (some a) junk = .ok a.value := by
  have hn : a.native = true := by
    rcases hw with hw | hw <;> simp [Attr.native, hk, hb, hw]
  simp [readDouble, hn, hk]

/-- **C99 (integers as `double`).** An integer attribute of 16, 32 or 64 bits is read as the double
nearest to it, which is the integer itself up to `2^53`. -/
theorem C99_int_as_double_partial (a : Attr) (sg : Bool) (hk : a.kind = .int sg)
    (hb : a.bigEndian = false)
    (hw : a.bytes.length = 2 ∨ a.bytes.length = 4 ∨ a.bytes.length = 8) (junk : List Nat) :
    ∃ n : Int, a.value = some (n : ℚ) ∧ readDouble (some a) junk = .ok (some (rne 53 n)) ∧
      (|n| ≤ 2 ^ 53 → readDouble (some a) junk = .ok (some (n : ℚ))) := by
  have hn : a.native = true := by
    rcases hw with hw | hw | hw <;> simp [Attr.native, hk, hb, hw]
  have hv : ∃ n : Int, a.value = some (n : ℚ) := by
    cases sg
    · exact ⟨(leNat a.bytes : Nat), by simp [Attr.value, hk, hb]⟩
    · exact ⟨twos (8 * a.bytes.length) (leNat a.bytes), by simp [Attr.value, hk, hb]⟩
  obtain ⟨n, hv⟩ := hv
  have hr : readDouble (some a) junk = .ok (some (rne 53 n)) := by
    simp [readDouble, hn, hk, hv]
  refine ⟨n, hv, hr, fun hle => ?_⟩
  rw [hr]
  have := rne_exact (p := 53) (by norm_num) n 0 hle
  simp at this
  rw [this]

/-- **C99 (`int64_t`).** An integer attribute of 16, 32 or 64 bits whose value an `int64_t` can hold,
and a floating point attribute that holds such an integer, are read as that integer. -/
theorem C99_int64_partial (a : Attr) (hn : a.native = true) (n : Int) (hv : a.value = some (n : ℚ))
    (hlo : -2 ^ 63 ≤ n) (hhi : n < 2 ^ 63) (junk : List Nat) :
    readInt64 (some a) junk = .ok n := by
  have hw : wrap64 n = n := by unfold wrap64; omega
  have ht : truncZ (n : ℚ) = n := truncZ_int n
  simp only [readInt64, hv, hn, if_true, Int.floor_intCast, hw, ht]
  cases hk : a.kind <;> simp only []
  · rw [if_pos ⟨hlo, hhi⟩]
  · simp [Attr.native, hk] at hn

/-- A missing attribute is reported. -/
theorem C99_missing (junk : List Nat) : readDouble none junk = .throws .invalidArgument ∧
    readInt64 none junk = .throws .invalidArgument := ⟨rfl, rfl⟩

theorem leNat_append (xs ys : List Nat) : leNat (xs ++ ys) = leNat xs + 256 ^ xs.length * leNat ys := by
  induction xs with
  | nil => simp [leNat]
  | cons x xs ih => simp only [List.cons_append, leNat, ih, List.length_cons, pow_succ]; ring

/-- **Violation of C99.** An 8-bit integer attribute is copied into the first byte of the result; the
other seven keep what was there. So for every such attribute there is a state of memory in which
another number is read. -/
theorem C99_int8_garbage (a : Attr) (sg : Bool) (hk : a.kind = .int sg) (b : Nat) (hb : b < 256)
    (hbytes : a.bytes = [b]) :
    ∃ junk, junk.length = 8 ∧ (∀ x ∈ junk, x < 256) ∧
      ∃ n, readInt64 (some a) junk = .ok n ∧ a.value ≠ some (n : ℚ) := by
  refine ⟨[0, 1, 0, 0, 0, 0, 0, 0], rfl, by simp, (b : Int) + 256, ?_, ?_⟩
  · have hn : a.native = false := by simp [Attr.native, hk, hbytes]
    simp only [readInt64, hn, rawRead, hbytes]
    simp [leNat, twos]
    omega
  · have hr : (if a.bigEndian then a.bytes.reverse else a.bytes) = [b] := by
      rw [hbytes]; split <;> rfl
    simp only [Attr.value, hr, hk]
    intro he
    cases sg
    · have := Option.some.inj he
      simp only [leNat, Nat.mul_zero, Nat.add_zero] at this
      have : (b : Int) = b + 256 := by exact_mod_cast this
      omega
    · have := Option.some.inj he
      have : twos (8 * a.bytes.length) (leNat [b]) = (b : Int) + 256 := by exact_mod_cast this
      simp only [hbytes, leNat, twos] at this
      split at this <;> simp at this <;> omega

/-- **Violation of C99.** Big-endian attributes are copied without a conversion: the `double` 1 is
read as a number below `2^-200`. -/
theorem C99_big_endian_garbage (junk : List Nat) (hj : junk.length = 8) :
    ∃ a : Attr, a.kind = .float ∧ a.bytes.length = 8 ∧ a.value = some 1 ∧
      ∃ x : ℚ, readDouble (some a) junk = .ok (some x) ∧ 0 < x ∧ x < 1 / 2 ^ 200 := by
  have hd : junk.drop 8 = [] := List.drop_eq_nil_iff.2 (by omega)
  have hr : readDouble (some ⟨.float, true, [0x3f, 0xf0, 0, 0, 0, 0, 0, 0]⟩) junk =
      .ok (double [0x3f, 0xf0, 0, 0, 0, 0, 0, 0]) := by
    have e1 : rawRead ⟨.float, true, [0x3f, 0xf0, 0, 0, 0, 0, 0, 0]⟩ junk =
        .ok ([0x3f, 0xf0, 0, 0, 0, 0, 0, 0] ++ junk.drop 8) := rfl
    simp only [readDouble]
    rw [if_neg (by decide), e1, hd, Outcome.bind_ok]
    rfl
  have hx : ∃ x, double [0x3f, 0xf0, 0, 0, 0, 0, 0, 0] = some x ∧ 0 < x ∧ x < 1 / 2 ^ 200 :=
    ⟨(double [0x3f, 0xf0, 0, 0, 0, 0, 0, 0]).getD 0, by decide +kernel, by decide +kernel,
      by decide +kernel⟩
  obtain ⟨x, h1, h2, h3⟩ := hx
  exact ⟨⟨.float, true, [0x3f, 0xf0, 0, 0, 0, 0, 0, 0]⟩, rfl, rfl, by decide +kernel, x,
    by rw [hr, h1], h2, h3⟩

/-- **Violation of C99.** An attribute wider than the variable that receives it (an 80-bit
`long double`, say) is written past the end of that variable. -/
theorem C99_wide_undefined (a : Attr) (hw : 8 < a.bytes.length) (junk : List Nat) :
    readDouble (some a) junk = .ub ∧ readInt64 (some a) junk = .ub := by
  have hn : a.native = false := by
    unfold Attr.native
    cases a.kind <;> simp <;> omega
  constructor
  · simp [readDouble, hn, rawRead, hw]
  · simp [readInt64, hn, rawRead, hw]

/-- What memory held plays no role for the recognised types. -/
theorem readInt64_native (a : Attr) (hn : a.native = true) (junk junk' : List Nat) :
    readInt64 (some a) junk = readInt64 (some a) junk' := by
  simp [readInt64, hn]

/-- **Violation of C99.** A `uint64_t` from `2^63` on becomes negative, and a floating point attribute
with a fraction loses it. -/
theorem C99_int64_changes (junk : List Nat) :
    readInt64 (some ⟨.int false, false, [255, 255, 255, 255, 255, 255, 255, 255]⟩) junk = .ok (-1) ∧
    readInt64 (some ⟨.float, false, [0, 0, 0, 0, 0, 0, 0xf8, 0x3f]⟩) junk = .ok 1 ∧
    Attr.value ⟨.float, false, [0, 0, 0, 0, 0, 0, 0xf8, 0x3f]⟩ = some (3 / 2) := by
  refine ⟨?_, ?_, by decide +kernel⟩
  · rw [readInt64_native _ (by decide) junk []]; decide +kernel
  · rw [readInt64_native _ (by decide) junk []]; decide +kernel

/-- Concrete cases: -2 in 16 bits, and 1.5 in both precisions. -/
example : readInt64 (some ⟨.int true, false, [254, 255]⟩) [] = .ok (-2) ∧
    readDouble (some ⟨.float, false, [0, 0, 0xc0, 0x3f]⟩) [] = .ok (some (3 / 2)) ∧
    readDouble (some ⟨.float, false, [0, 0, 0, 0, 0, 0, 0xf8, 0x3f]⟩) [] = .ok (some (3 / 2)) := by
  decide +kernel

/-! ## C100: strings -/

/-- A string attribute: of fixed length, with all its bytes; or of variable length, where a null
pointer is possible; or not a string at all. -/
inductive Str
  | fixed (bytes : List Char)
  | variable (text : Option (List Char))
  | notString

/-- `read_data_attr<std::string>` (lines 103-143). The format string of the last error message lacks
its argument, so that `fmt::format` throws its own error, a `runtime_error`. A `std::string` made of
a null pointer is undefined; one made of a C string ends at the first NUL. -/
def readString : Option Str → Outcome (List Char)
  | none => .throws .invalidArgument
  | some (.fixed bytes) => .ok bytes
  | some (.variable (some text)) => .ok (text.takeWhile (· ≠ '\x00'))
  | some (.variable none) => .ub
  | some .notString => .throws .runtimeError

/-- **Specification.** The text is stored by an attribute: padded at its end with NULs to a fixed
length, or as a C string. The text itself holds no NUL. -/
inductive Stores : List Char → Str → Prop
  | fixed (text : List Char) (pad : Nat) (h : '\x00' ∉ text) :
      Stores text (.fixed (text ++ List.replicate pad '\x00'))
  | variable (text rest : List Char) (h : '\x00' ∉ text) (hr : rest = [] ∨ rest.head? = some '\x00') :
      Stores text (.variable (some (text ++ rest)))

/-- **C100.** A string of variable length, and one of a fixed length that is used up, is read as
stored. Missing: shorter strings of fixed length (`C100_padding_kept`). -/
theorem C100_string_partial (text : List Char) (s : Str) (h : Stores text s)
    (hfull : ∀ bytes, s = .fixed bytes → bytes.length = text.length) :
    readString (some s) = .ok text := by
  cases h with
  | fixed pad h =>
    have := hfull _ rfl
    have : pad = 0 := by simpa using this
    subst this
    simp [readString]
  | «variable» rest h hr =>
    simp only [readString]
    have h2 : rest.takeWhile (· ≠ '\x00') = [] := by
      rcases hr with rfl | hr
      · rfl
      · cases rest with
        | nil => rfl
        | cons c cs => simp at hr; subst hr; simp
    rw [List.takeWhile_append_of_pos, h2, List.append_nil]
    intro c hc
    simp only [decide_eq_true_eq]
    exact fun e => h (e ▸ hc)

/-- **Violation of C100.** A string of fixed length keeps its padding: what is read differs from what
is stored, so that the same source name stored in two ways is two different names. -/
theorem C100_padding_kept (text : List Char) (pad : Nat) (hp : 0 < pad) :
    readString (some (.fixed (text ++ List.replicate pad '\x00'))) ≠ .ok text := by
  simp only [readString, ne_eq, Outcome.ok.injEq]
  intro h
  have := congrArg List.length h
  simp at this
  omega

/-- A number where a string is expected, and a missing attribute, are reported. -/
theorem C100_not_a_string : readString (some .notString) = .throws .runtimeError ∧
    readString none = .throws .invalidArgument := ⟨rfl, rfl⟩

/-- The name of a source, stored in a field of 12 bytes and as a C string. -/
example : Stores "VOYAGER-1".toList (.fixed ("VOYAGER-1".toList ++ List.replicate 3 '\x00')) ∧
    Stores "VOYAGER-1".toList (.variable (some ("VOYAGER-1".toList ++ ['\x00', 'x']))) ∧
    readString (some (.variable (some ("VOYAGER-1".toList ++ ['\x00', 'x'])))) =
      .ok "VOYAGER-1".toList :=
  ⟨.fixed _ _ (by decide), .variable _ _ (by decide) (.inr rfl), by decide +kernel⟩

end Bliss.H5Attr
