import Verif.File.Props
import Mathlib.Tactic.IntervalCases

/-!
# The bytes of a hits file (C115)

`File/Model.lean` leaves the bytes that `capnp::writeMessageToFd` produces and
`capnp::StreamFdMessageReader` accepts to a `Framing`. Here they are written out for the messages of
a hits file: the stream framing and the struct encoding of Cap'n Proto, applied to the structures
`Hit` and `Signal` of `bliss/file_types/hit.capnp`. Cap'n Proto itself is not in the repository; its
published encoding (`capnproto.org/encoding.html`) and the checks of its reader are what is modelled.

`float` and `double` are bit patterns, `UInt32` and `UInt64`.
-/

namespace Bliss.File.Capnp

open Bliss Bliss.File Bliss.Hit

/-! ## Little-endian numbers -/

/-- The `k` low bytes of `n`, lowest first. -/
def le : Nat → Nat → List UInt8
  | 0, _ => []
  | k + 1, n => UInt8.ofNat (n % 256) :: le k (n / 256)

/-- The number whose bytes, lowest first, are the list. -/
def ofLE : List UInt8 → Nat
  | [] => 0
  | b :: bs => b.toNat + 256 * ofLE bs

/-- The bits of an `int32_t`. -/
def bits32 (n : Int) : Nat := (n % 2 ^ 32).toNat

/-! ## Writing -/

/-- One pointer word to a struct: two zero bits and the distance in words from the end of the pointer,
then the number of data words and of pointer words of the struct. -/
def structPtr (offset dataWords ptrWords : Nat) : List UInt8 :=
  le 4 (4 * offset) ++ le 2 dataWords ++ le 2 ptrWords

/-- The data section of a `Signal` (`hit.capnp:10-53`): the members are placed in the order of their
numbers, each in the lowest free position of its own size. `coarseChannel @5` and `beam @6` are never
set and keep their default 0. -/
def signalData (s : Signal UInt32 UInt64) : List UInt8 :=
  le 8 s.frequency.toNat ++                                            -- @0
  (le 4 (bits32 s.index) ++ le 4 (bits32 s.driftSteps)) ++             -- @1, @2
  le 8 s.driftRate.toNat ++                                            -- @3
  (le 4 s.snr.toNat ++ le 4 0) ++                                      -- @4, @5
  (le 4 0 ++ le 4 (bits32 s.numTimesteps)) ++                          -- @6, @7
  (le 4 s.power.toNat ++ le 4 s.incoherentPower.toNat) ++              -- @8, @9
  (le 4 (bits32 s.driftIndex) ++ le 4 s.startTime.toNat) ++            -- @10, @11
  (le 4 s.duration.toNat ++ le 4 s.bandwidth.toNat) ++                 -- @12, @13
  (le 4 s.binwidth.toNat ++ le 4 0)                                    -- @14

/-- `message.initRoot<Hit>()`, `hit_builder.initSignal()`, the members, and
`writeMessageToFd(fd, message)` (`cpnp_files.cpp:28-33`): the segment table (one segment of 12 words),
the root pointer, the two pointers of `Hit` (`hit.capnp:93-96`; no filterbank), the `Signal`. -/
def encodeHit (s : Signal UInt32 UInt64) : List UInt8 :=
  le 4 0 ++ le 4 12 ++ (structPtr 0 0 2 ++ (structPtr 1 9 0 ++ le 8 0 ++ signalData s))

/-! ## Reading -/

/-- `inputStream.read(n bytes)`: the bytes and the rest, or an exception at the end of the file. -/
def readBytes (n : Nat) (bytes : List UInt8) : Option (List UInt8 × List UInt8) :=
  if n ≤ bytes.length then some (bytes.take n, bytes.drop n) else none

/-- `ReaderOptions::traversalLimitInWords`, the default that `cpnp_files.cpp:47` uses. -/
def traversalLimit : Nat := 8 * 1024 * 1024

/-- The numbers in a list of 4-byte entries. -/
def sizes : Nat → List UInt8 → List Nat
  | 0, _ => []
  | k + 1, bytes => ofLE (bytes.take 4) :: sizes k (bytes.drop 4)

/-- The constructor of `StreamFdMessageReader` (`cpnp_files.cpp:47`): the first segment and the bytes
after the message. The segment table is the number of segments minus one, the size of each in words,
and padding to a whole word. More than 511 segments and messages above the limit are refused. The
other segments are skipped: pointers into them are not followed by `follow` below. -/
def readMessage (bytes : List UInt8) : Option (List UInt8 × List UInt8) := do
  let (first, rest) ← readBytes 8 bytes
  let count := (ofLE (first.take 4) + 1) % 2 ^ 32
  let size0 := if count = 0 then 0 else ofLE (first.drop 4)
  if count < 512 then
    let (more, rest) ← readBytes (4 * (count / 2 * 2)) rest
    let total := size0 + (sizes (count - 1) more).sum
    if total ≤ traversalLimit then
      let (body, rest) ← readBytes (8 * total) rest
      pure (body.take (8 * size0), rest)
    else none
  else none

/-- A struct in a segment: where its data and its pointers start, in words, and how many there are. -/
structure Struct where
  at_ : Nat
  dataWords : Nat
  ptrWords : Nat

/-- The word at a position. -/
def wordAt (seg : List UInt8) (i : Nat) : Nat := ofLE ((seg.drop (8 * i)).take 8)

/-- Follow the pointer in word `i` of a segment to a struct: `none` for an exception, `some none` for
a null pointer. The distance is a signed 30-bit number of words. Far pointers (which the writer never
produces) are refused here; the library would follow them. -/
def follow (seg : List UInt8) (i : Nat) : Option (Option Struct) :=
  let w := wordAt seg i
  if w = 0 then some none
  else if w % 4 ≠ 0 then none
  else
    let u : Nat := w / 4 % 2 ^ 30
    let target : Int := (i : Int) + 1 + (if u < 2 ^ 29 then (u : Int) else (u : Int) - 2 ^ 30)
    let d : Nat := w / 2 ^ 32 % 2 ^ 16
    let p : Nat := w / 2 ^ 48
    if 0 ≤ target ∧ target + (d + p : Nat) ≤ ((seg.length / 8 : Nat) : Int) then
      some (some ⟨target.toNat, d, p⟩)
    else none

/-- `message.getRoot<Hit>()` (`cpnp_files.cpp:48`): the first word of the first segment; a message
without it is refused. -/
def root (seg : List UInt8) : Option (Option Struct) :=
  if 1 ≤ seg.length / 8 then follow seg 0 else none

/-- `hit_reader.getSignal()` (`cpnp_files.cpp:49`): the first pointer of the struct; a struct without
pointers, or no struct, has a null pointer there. -/
def getSignal (seg : List UInt8) : Option Struct → Option (Option Struct)
  | none => some none
  | some s => if 1 ≤ s.ptrWords then follow seg (s.at_ + s.dataWords) else some none

/-- The data section of a struct. -/
def dataOf (seg : List UInt8) : Option Struct → List UInt8
  | none => []
  | some s => (seg.drop (8 * s.at_)).take (8 * s.dataWords)

/-- A member of `k` bytes at a byte position of the data section; 0, its default, if the data section
is too short to hold it. -/
def field (data : List UInt8) (pos k : Nat) : Nat :=
  if pos + k ≤ data.length then ofLE ((data.drop pos).take k) else 0

/-- An `int32_t` member. -/
def intField (data : List UInt8) (pos : Nat) : Int := wrap32 (field data pos 4)

/-- A `float` member. -/
def f32Field (data : List UInt8) (pos : Nat) : UInt32 := UInt32.ofNat (field data pos 4)

/-- A `double` member. -/
def f64Field (data : List UInt8) (pos : Nat) : UInt64 := UInt64.ofNat (field data pos 8)

/-- The getters of `Signal::Reader` (`cpnp_hit_builder.cpp:32-45`). -/
def signalOf (data : List UInt8) : Signal UInt32 UInt64 :=
  { frequency := f64Field data 0, index := intField data 8, driftSteps := intField data 12,
    driftRate := f64Field data 16, driftIndex := intField data 48, snr := f32Field data 24,
    numTimesteps := intField data 36, power := f32Field data 40,
    incoherentPower := f32Field data 44, startTime := f32Field data 52,
    duration := f32Field data 56, bandwidth := f32Field data 60, binwidth := f32Field data 64 }

/-- One iteration of the reading loop up to the conversion (`cpnp_files.cpp:47-49`). -/
def decodeHit (bytes : List UInt8) : Option (Signal UInt32 UInt64 × List UInt8) := do
  let (seg, rest) ← readMessage bytes
  let h ← root seg
  let s ← getSignal seg h
  pure (signalOf (dataOf seg s), rest)

/-- The framing of a hits file. -/
def framing : Framing (Signal UInt32 UInt64) := ⟨encodeHit, decodeHit⟩

/-! ## Reading back -/

theorem le_length (k n : Nat) : (le k n).length = k := by
  induction k generalizing n with
  | zero => rfl
  | succ k ih => simp [le, ih]

theorem ofLE_le (k n : Nat) : ofLE (le k n) = n % 256 ^ k := by
  induction k generalizing n with
  | zero => simp [le, ofLE, Nat.mod_one]
  | succ k ih =>
    simp only [le, ofLE, ih]
    rw [pow_succ', Nat.mod_mul]
    congr 1
    simp [UInt8.toNat_ofNat']

theorem bits32_lt (n : Int) : bits32 n < 2 ^ 32 := by
  unfold bits32
  have := Int.emod_lt_of_pos n (by norm_num : (0 : Int) < 2 ^ 32)
  have := Int.emod_nonneg n (by norm_num : (2 ^ 32 : Int) ≠ 0)
  omega

theorem wrap32_bits32 {n : Int} (h : Fits32 n) : wrap32 (bits32 n) = n := by
  unfold bits32 wrap32
  obtain ⟨h1, h2⟩ := h
  have := Int.emod_nonneg n (by norm_num : (2 ^ 32 : Int) ≠ 0)
  rw [Int.toNat_of_nonneg this]
  omega

theorem readBytes_append (a r : List UInt8) : readBytes a.length (a ++ r) = some (a, r) := by
  simp [readBytes]

theorem readBytes_append' {n : Nat} {a : List UInt8} (h : a.length = n) (r : List UInt8) :
    readBytes n (a ++ r) = some (a, r) := by
  subst h; exact readBytes_append a r

/-- The first segment of a hit message. -/
def segment (data : List UInt8) : List UInt8 := structPtr 0 0 2 ++ (structPtr 1 9 0 ++ le 8 0 ++ data)

theorem signalData_length (s : Signal UInt32 UInt64) : (signalData s).length = 72 := by
  simp [signalData, le_length]

theorem segment_length {data : List UInt8} (h : data.length = 72) : (segment data).length = 96 := by
  simp [segment, structPtr, le_length, h]

theorem readMessage_segment {data : List UInt8} (h : data.length = 72) (rest : List UInt8) :
    readMessage (le 4 0 ++ le 4 12 ++ segment data ++ rest) = some (segment data, rest) := by
  unfold readMessage
  rw [List.append_assoc, readBytes_append' (by simp [le_length])]
  have h1 : ofLE (List.take 4 (le 4 0 ++ le 4 12)) = 0 := by decide
  have h2 : ofLE (List.drop 4 (le 4 0 ++ le 4 12)) = 12 := by decide
  simp only [h1, h2, Option.bind_eq_bind, Option.bind_some]
  norm_num
  have h3 : readBytes 0 (segment data ++ rest) = some ([], segment data ++ rest) := by simp [readBytes]
  rw [h3]
  have h4 : readBytes 96 (segment data ++ rest) = some (segment data, rest) :=
    readBytes_append' (segment_length h) rest
  simp only [Option.bind_some, sizes, List.sum_nil, traversalLimit]
  norm_num
  rw [h4]
  simp [List.take_of_length_le (segment_length h).le]

theorem follow_root (data : List UInt8) (h : data.length = 72) :
    root (segment data) = some (some ⟨1, 0, 2⟩) := by
  have hw : wordAt (segment data) 0 = 2 * 2 ^ 48 := by
    have : (List.drop (8 * 0) (segment data)).take 8 = structPtr 0 0 2 := by
      rfl
    rw [wordAt, this]; decide
  unfold root follow
  rw [hw, segment_length h]
  norm_num

theorem follow_signal (data : List UInt8) (h : data.length = 72) :
    getSignal (segment data) (some ⟨1, 0, 2⟩) = some (some ⟨3, 9, 0⟩) := by
  have hw : wordAt (segment data) 1 = 4 + 9 * 2 ^ 32 := by
    have : (List.drop (8 * 1) (segment data)).take 8 = structPtr 1 9 0 := by
      rfl
    rw [wordAt, this]; decide
  unfold getSignal follow
  norm_num
  rw [hw, segment_length h]
  norm_num
  rfl

theorem dataOf_signal (data : List UInt8) (h : data.length = 72) :
    dataOf (segment data) (some ⟨3, 9, 0⟩) = data := by
  have : List.drop (8 * 3) (segment data) = data := rfl
  rw [dataOf, this, List.take_of_length_le (by simp [h])]

/-- A message with any 72 bytes of hit data. -/
theorem decodeHit_segment {data : List UInt8} (h : data.length = 72) (rest : List UInt8) :
    decodeHit (le 4 0 ++ le 4 12 ++ segment data ++ rest) = some (signalOf data, rest) := by
  unfold decodeHit
  rw [readMessage_segment h]
  simp only [Option.bind_eq_bind, Option.bind_some, follow_root data h, follow_signal data h,
    dataOf_signal data h]
  rfl

theorem signalOf_signalData {s : Signal UInt32 UInt64} (h : s.Fits) :
    signalOf (signalData s) = s := by
  have hl := signalData_length s
  have h32 : ∀ pos n, pos + 4 ≤ 72 → n < 2 ^ 32 →
      ((signalData s).drop pos).take 4 = le 4 n → field (signalData s) pos 4 = n := by
    intro pos n hp hn he
    rw [field, hl, if_pos hp, he, ofLE_le, Nat.mod_eq_of_lt (by omega)]
  have h64 : ∀ pos n, pos + 8 ≤ 72 → n < 2 ^ 64 →
      ((signalData s).drop pos).take 8 = le 8 n → field (signalData s) pos 8 = n := by
    intro pos n hp hn he
    rw [field, hl, if_pos hp, he, ofLE_le, Nat.mod_eq_of_lt (by omega)]
  have hi : ∀ pos n, pos + 4 ≤ 72 → Fits32 n →
      ((signalData s).drop pos).take 4 = le 4 (bits32 n) → intField (signalData s) pos = n := by
    intro pos n hp hn he
    rw [intField, h32 pos _ hp (bits32_lt n) he, wrap32_bits32 hn]
  have hf : ∀ pos (x : UInt32), pos + 4 ≤ 72 →
      ((signalData s).drop pos).take 4 = le 4 x.toNat → f32Field (signalData s) pos = x := by
    intro pos x hp he
    rw [f32Field, h32 pos _ hp x.toNat_lt he, UInt32.ofNat_toNat]
  have hd : ∀ pos (x : UInt64), pos + 8 ≤ 72 →
      ((signalData s).drop pos).take 8 = le 8 x.toNat → f64Field (signalData s) pos = x := by
    intro pos x hp he
    rw [f64Field, h64 pos _ hp x.toNat_lt he, UInt64.ofNat_toNat]
  unfold signalOf
  rw [hd 0 s.frequency (by norm_num) rfl, hi 8 s.index (by norm_num) h.index rfl,
    hi 12 s.driftSteps (by norm_num) h.steps rfl, hd 16 s.driftRate (by norm_num) rfl,
    hi 48 s.driftIndex (by norm_num) h.drift rfl, hf 24 s.snr (by norm_num) rfl,
    hi 36 s.numTimesteps (by norm_num) h.span rfl, hf 40 s.power (by norm_num) rfl,
    hf 44 s.incoherentPower (by norm_num) rfl, hf 52 s.startTime (by norm_num) rfl,
    hf 56 s.duration (by norm_num) rfl, hf 60 s.bandwidth (by norm_num) rfl,
    hf 64 s.binwidth (by norm_num) rfl]

theorem decodeHit_encodeHit {s : Signal UInt32 UInt64} (h : s.Fits) (rest : List UInt8) :
    decodeHit (encodeHit s ++ rest) = some (s, rest) := by
  have := decodeHit_segment (signalData_length s) rest
  rw [signalOf_signalData h] at this
  exact this

theorem encodeHit_length (s : Signal UInt32 UInt64) : (encodeHit s).length = 104 := by
  simp [encodeHit, structPtr, le_length, signalData_length]

theorem readMessage_rest {bytes seg rest : List UInt8} (h : readMessage bytes = some (seg, rest)) :
    rest <:+ bytes ∧ rest.length + seg.length + 8 ≤ bytes.length := by
  unfold readMessage at h
  simp only [Option.bind_eq_bind, Option.bind_eq_some_iff] at h
  obtain ⟨⟨first, r1⟩, h1, h⟩ := h
  have key : ∀ {n : Nat} {b a r : List UInt8}, readBytes n b = some (a, r) → b = a ++ r := by
    intro n b a r h
    unfold readBytes at h
    split at h
    · simp only [Option.some.injEq, Prod.mk.injEq] at h
      rw [← h.1, ← h.2, List.take_append_drop]
    · cases h
  have hf8 : first.length = 8 := by
    unfold readBytes at h1
    split at h1
    · simp only [Option.some.injEq, Prod.mk.injEq] at h1
      rw [← h1.1, List.length_take]; omega
    · cases h1
  have e1 := key h1
  dsimp only at h
  generalize (ofLE (List.take 4 first) + 1) % 2 ^ 32 = count at h
  generalize (if count = 0 then 0 else ofLE (List.drop 4 first)) = size0 at h
  split at h
  · simp only [Option.bind_eq_some_iff] at h
    obtain ⟨⟨more, r2⟩, h2, h⟩ := h
    have e2 := key h2
    dsimp only at h
    split at h
    · simp only [Option.bind_eq_some_iff] at h
      obtain ⟨⟨body, r3⟩, h3, h⟩ := h
      have e3 := key h3
      simp only [Option.pure_def, Option.some.injEq, Prod.mk.injEq] at h
      obtain ⟨rfl, rfl⟩ := h
      subst e3
      subst e2
      subst e1
      refine ⟨⟨first ++ more ++ body, by simp⟩, ?_⟩
      simp only [List.length_append, List.length_take, hf8]
      omega
    · cases h
  · cases h

theorem decodeHit_rest {bytes rest : List UInt8} {s : Signal UInt32 UInt64}
    (h : decodeHit bytes = some (s, rest)) : rest <:+ bytes ∧ rest.length + 16 ≤ bytes.length := by
  unfold decodeHit at h
  simp only [Option.bind_eq_bind, Option.bind_eq_some_iff] at h
  obtain ⟨⟨seg, r⟩, h1, hh, h2, sg, h3, h4⟩ := h
  simp only [Option.pure_def, Option.some.injEq, Prod.mk.injEq] at h4
  obtain ⟨_, rfl⟩ := h4
  obtain ⟨a, b⟩ := readMessage_rest h1
  refine ⟨a, ?_⟩
  unfold root at h2
  split at h2
  · dsimp only at *
    omega
  · cases h2

theorem decodeHit_nil : decodeHit [] = none := by
  cases h : decodeHit [] with
  | none => rfl
  | some p =>
    have := (decodeHit_rest (s := p.1) (rest := p.2) h).2
    simp at this

/-- The bound on the iterations in the model does not matter. -/
theorem readLoop_fuel {A : Type} (conv : Signal UInt32 UInt64 → Outcome A) (n : Nat)
    (bytes : List UInt8) (hn : bytes.length ≤ n) :
    readLoop framing conv n bytes = readLoop framing conv bytes.length bytes := by
  induction n using Nat.strong_induction_on generalizing bytes with
  | _ n ih =>
    cases n with
    | zero =>
      have : bytes.length = 0 := by omega
      rw [this]
    | succ n =>
      have hnil : framing.decode [] = none := decodeHit_nil
      cases hb : bytes.length with
      | zero =>
        have : bytes = [] := List.length_eq_zero_iff.1 hb
        subst this
        simp [readLoop, hnil]
      | succ m =>
        rw [readLoop, readLoop]
        cases hd : framing.decode bytes with
        | none => rfl
        | some p =>
          obtain ⟨s, rest⟩ := p
          have hr := (decodeHit_rest (show decodeHit bytes = some (s, rest) from hd)).2
          dsimp only
          rw [ih n (by omega) rest (by omega), ih m (by omega) rest (by omega)]

theorem readHits_message (C : Conv UInt32 UInt64) {bytes rest : List UInt8}
    {s : Signal UInt32 UInt64} (h : decodeHit bytes = some (s, rest)) :
    readHits C framing bytes = (do
      let a ← ofSignal C s
      let as ← readHits C framing rest
      pure (a :: as)) := by
  have hr := (decodeHit_rest h).2
  obtain ⟨m, hm⟩ : ∃ m, bytes.length = m + 1 := ⟨bytes.length - 1, by omega⟩
  have hd : framing.decode bytes = some (s, rest) := h
  unfold readHits
  rw [hm, readLoop, hd]
  dsimp only
  rw [readLoop_fuel (ofSignal C) m rest (by omega)]

theorem readHits_refused (C : Conv UInt32 UInt64) {bytes : List UInt8}
    (h : decodeHit bytes = none) : readHits C framing bytes = .ok [] := by
  have hd : framing.decode bytes = none := h
  unfold readHits
  cases bytes.length with
  | zero => rfl
  | succ n => rw [readLoop, hd]

theorem readMessage_short {data : List UInt8} (h : data.length = 72) {k : Nat} (hk : k < 104) :
    readMessage ((le 4 0 ++ le 4 12 ++ segment data).take k) = none := by
  by_cases h8 : k < 8
  · unfold readMessage readBytes
    rw [if_neg (by simp only [List.length_take]; omega)]
    rfl
  · have e : (le 4 0 ++ le 4 12 ++ segment data).take k =
        (le 4 0 ++ le 4 12) ++ (segment data).take (k - 8) := by
      rw [List.take_append, List.take_of_length_le (by simp [le_length]; omega)]
      simp [le_length]
    unfold readMessage
    rw [e, readBytes_append' (by simp [le_length])]
    have h1 : ofLE (List.take 4 (le 4 0 ++ le 4 12)) = 0 := by decide
    have h2 : ofLE (List.drop 4 (le 4 0 ++ le 4 12)) = 12 := by decide
    simp only [h1, h2, Option.bind_eq_bind, Option.bind_some]
    norm_num
    have h3 : ∀ l : List UInt8, readBytes 0 l = some ([], l) := by intro l; simp [readBytes]
    rw [h3]
    simp only [sizes, List.sum_nil, traversalLimit]
    norm_num
    have h4 : readBytes 96 ((segment data).take (k - 8)) = none := by
      unfold readBytes
      rw [if_neg (by rw [List.length_take, segment_length h]; omega)]
    rw [h4]
    intro a b hab
    cases hab

theorem decodeHit_cut (s : Signal UInt32 UInt64) {k : Nat} (hk : k < 104) :
    decodeHit ((encodeHit s).take k) = none := by
  have : readMessage ((encodeHit s).take k) = none := readMessage_short (signalData_length s) hk
  unfold decodeHit
  rw [this]
  rfl

theorem decodeHit_zeros (n : Nat) : decodeHit (List.replicate n 0) = none := by
  by_cases h8 : n < 8
  · have : readMessage (List.replicate n 0) = none := by
      unfold readMessage readBytes
      rw [if_neg (by simp only [List.length_replicate]; omega)]
      rfl
    unfold decodeHit
    rw [this]
    rfl
  · have : readMessage (List.replicate n 0) = some ([], List.replicate (n - 8) 0) := by
      obtain ⟨m, rfl⟩ : ∃ m, n = 8 + m := ⟨n - 8, by omega⟩
      unfold readMessage
      rw [List.replicate_add, readBytes_append' (by simp)]
      have h1 : ofLE (List.take 4 (List.replicate 8 0)) = 0 := by decide
      have h2 : ofLE (List.drop 4 (List.replicate 8 0)) = 0 := by decide
      have h3 : ∀ l : List UInt8, readBytes 0 l = some ([], l) := by intro l; simp [readBytes]
      simp only [h1, h2, Option.bind_eq_bind, Option.bind_some]
      norm_num
      rw [h3]
      simp only [Option.bind_some, sizes, List.sum_nil, traversalLimit]
      norm_num
      rw [h3]
      simp
    unfold decodeHit
    rw [this]
    rfl

/-- **C39, the laws hold.** The format of hits files meets the laws that C39, C106 and C107 ask of
it. -/
theorem framing_lawful : framing.LawfulOn Signal.Fits where
  nonempty := fun s _ h => by
    have := encodeHit_length s
    rw [show encodeHit s = [] from h] at this
    cases this
  decode := fun s hs rest => decodeHit_encodeHit hs rest
  truncated := fun s _ bytes hp hne => by
    rw [List.prefix_iff_eq_take.1 hp]
    refine decodeHit_cut s ?_
    have h1 := hp.length_le
    have h2 : bytes.length ≠ (framing.encode s).length := fun h => hne (hp.eq_of_length h)
    have h3 : (framing.encode s).length = 104 := encodeHit_length s
    omega
  empty := decodeHit_nil

/-! ## C115 -/

/-- A hit as it comes back from a message (C37). -/
abbrev roundTrip (C : Conv UInt32 UInt64) (h : Hit UInt32 UInt64) : Outcome (Hit UInt32 UInt64) :=
  ofSignal C (toSignal C h)

theorem writeHits_nil (C : Conv UInt32 UInt64) : writeHits C framing [] = [] := rfl

theorem writeHits_cons (C : Conv UInt32 UInt64) (h : Hit UInt32 UInt64)
    (hs : List (Hit UInt32 UInt64)) :
    writeHits C framing (h :: hs) = encodeHit (toSignal C h) ++ writeHits C framing hs := rfl

/-- **C115, size.** Every hit takes 104 bytes of the file. -/
theorem C115_file_size (C : Conv UInt32 UInt64) (hs : List (Hit UInt32 UInt64)) :
    (writeHits C framing hs).length = 104 * hs.length := by
  induction hs with
  | nil => rfl
  | cons h hs ih =>
    rw [writeHits_cons, List.length_append, ih, encodeHit_length, List.length_cons]
    ring

/-- **C115, joined files.** Whatever follows the hits in the file, they are read first, in order and
unchanged by it, and then the rest is read as if it were a file of its own. -/
theorem C115_followed_by (C : Conv UInt32 UInt64) (hs : List (Hit UInt32 UInt64))
    (tail : List UInt8) :
    readHits C framing (writeHits C framing hs ++ tail) = (do
      let as ← mapAll (roundTrip C) hs
      let bs ← readHits C framing tail
      pure (as ++ bs)) := by
  induction hs with
  | nil =>
    simp only [writeHits_nil, List.nil_append, mapAll, Outcome.bind_ok]
    cases readHits C framing tail <;> rfl
  | cons h hs ih =>
    rw [writeHits_cons, List.append_assoc,
      readHits_message C (decodeHit_encodeHit (toSignal_fits C h) _), ih]
    simp only [mapAll, roundTrip]
    cases ofSignal C (toSignal C h) with
    | throws e => rfl
    | ub => rfl
    | ok a =>
      simp only [Outcome.bind_ok]
      cases mapAll (fun h => ofSignal C (toSignal C h)) hs with
      | throws e => rfl
      | ub => rfl
      | ok as =>
        simp only [Outcome.bind_ok]
        cases readHits C framing tail <;> rfl

theorem readHits_writeHits (C : Conv UInt32 UInt64) (hs : List (Hit UInt32 UInt64)) :
    readHits C framing (writeHits C framing hs) = mapAll (roundTrip C) hs := by
  have := C115_followed_by C hs []
  rw [List.append_nil, readHits_refused C decodeHit_nil] at this
  rw [this]
  cases mapAll (roundTrip C) hs <;> simp

theorem mapAll_append_nil {A B : Type} (f : A → Outcome B) (l : List A) :
    (do
      let as ← mapAll f l
      let bs ← (.ok [] : Outcome (List B))
      pure (as ++ bs)) = mapAll f l := by
  cases mapAll f l <;> simp

/-- **C115, cut files.** A hits file cut after `k` bytes, for any `k`, reads back as the first
`k / 104` hits. -/
theorem C115_cut (C : Conv UInt32 UInt64) (hs : List (Hit UInt32 UInt64)) (k : Nat) :
    readHits C framing ((writeHits C framing hs).take k) =
      mapAll (roundTrip C) (hs.take (k / 104)) := by
  by_cases hk : k / 104 < hs.length
  · have hsp : hs = hs.take (k / 104) ++ hs[k / 104] :: hs.drop (k / 104 + 1) := by
      rw [← List.drop_eq_getElem_cons hk, List.take_append_drop]
    have hw : (writeHits C framing hs).take k = writeHits C framing (hs.take (k / 104)) ++
        (encodeHit (toSignal C hs[k / 104])).take (k % 104) := by
      have e : writeHits C framing hs = writeHits C framing (hs.take (k / 104)) ++
          (encodeHit (toSignal C hs[k / 104]) ++ writeHits C framing (hs.drop (k / 104 + 1))) := by
        conv_lhs => rw [hsp]
        simp only [writeHits, writeAll, List.map_append, List.flatMap_append, List.map_cons,
          List.flatMap_cons]
        rfl
      have hl : (writeHits C framing (hs.take (k / 104))).length = 104 * (k / 104) := by
        rw [C115_file_size, List.length_take, Nat.min_eq_left hk.le]
      rw [e, List.take_append, List.take_of_length_le (by omega), hl,
        show k - 104 * (k / 104) = k % 104 by omega, List.take_append, encodeHit_length,
        show k % 104 - 104 = 0 by omega, List.take_zero, List.append_nil]
    rw [hw, C115_followed_by, readHits_refused C (decodeHit_cut _ (by omega))]
    exact mapAll_append_nil _ _
  · rw [List.take_of_length_le (by rw [C115_file_size]; omega), List.take_of_length_le (by omega),
      readHits_writeHits]

/-- **C115, zeroed tail.** If the file system extended the file but the bytes of the last writes never
arrived, the zeros in their place are not taken for hits. -/
theorem C115_zeroed_tail (C : Conv UInt32 UInt64) (hs : List (Hit UInt32 UInt64)) (n : Nat) :
    readHits C framing (writeHits C framing hs ++ List.replicate n 0) =
      mapAll (roundTrip C) hs := by
  rw [C115_followed_by, readHits_refused C (decodeHit_zeros n)]
  exact mapAll_append_nil _ _

/-- **C115, damaged values.** Overwrite the values of one hit, its last 72 bytes, with anything: the
hits before and after it are read as before. -/
theorem C115_damaged_values (C : Conv UInt32 UInt64) (before after : List (Hit UInt32 UInt64))
    (h : Hit UInt32 UInt64) (garbage : List UInt8) (hg : garbage.length = 72) :
    ∃ s, readHits C framing (writeHits C framing before ++
        ((encodeHit (toSignal C h)).take 32 ++ garbage) ++ writeHits C framing after) = (do
      let as ← mapAll (roundTrip C) before
      let x ← ofSignal C s
      let bs ← mapAll (roundTrip C) after
      pure (as ++ x :: bs)) := by
  refine ⟨signalOf garbage, ?_⟩
  have he : (encodeHit (toSignal C h)).take 32 ++ garbage = le 4 0 ++ le 4 12 ++ segment garbage := by
    rfl
  rw [List.append_assoc, C115_followed_by, he, readHits_message C (decodeHit_segment hg _),
    readHits_writeHits]
  cases mapAll (roundTrip C) before with
  | throws e => rfl
  | ub => rfl
  | ok as =>
    simp only [Outcome.bind_ok]
    cases ofSignal C (signalOf garbage) with
    | throws e => rfl
    | ub => rfl
    | ok a =>
      simp only [Outcome.bind_ok]
      cases mapAll (roundTrip C) after <;> rfl

/-- **C115, any file.** Whatever the bytes of the file, reading it looks at most at one hit per 16
bytes, so it ends, and it never throws. -/
theorem C115_any_file (C : Conv UInt32 UInt64) (hC : ∀ x e, C.toInt x ≠ .throws e)
    (bytes : List UInt8) :
    (∃ hs, readHits C framing bytes = .ok hs ∧ 16 * hs.length ≤ bytes.length) ∨
      readHits C framing bytes = .ub := by
  induction hn : bytes.length using Nat.strong_induction_on generalizing bytes with
  | _ n ih =>
    subst hn
    cases hd : decodeHit bytes with
    | none => exact Or.inl ⟨[], readHits_refused C hd, by simp⟩
    | some p =>
      obtain ⟨s, rest⟩ := p
      have hr := (decodeHit_rest hd).2
      rw [readHits_message C hd]
      cases hs : ofSignal C s with
      | throws e =>
        exfalso
        unfold ofSignal at hs
        cases ht : C.toInt s.binwidth with
        | throws e' => exact hC _ _ ht
        | ub => rw [ht] at hs; cases hs
        | ok v => rw [ht] at hs; cases hs
      | ub => exact Or.inr rfl
      | ok a =>
        rcases ih rest.length (by omega) rest rfl with ⟨hs', h1, h2⟩ | h1
        · exact Or.inl ⟨a :: hs', by rw [h1]; rfl, by simp only [List.length_cons]; omega⟩
        · exact Or.inr (by rw [h1]; rfl)

/-- **C115, damaged framing.** One byte is enough to lose every hit silently: with the second byte of
the file set to 255 the reader refuses the first message, stops, and returns no hits and no error. -/
theorem C115_damaged_framing (C : Conv UInt32 UInt64) (hs : List (Hit UInt32 UInt64)) :
    readHits C framing ((writeHits C framing hs).set 1 255) = .ok [] := by
  refine readHits_refused C ?_
  cases hs with
  | nil => exact decodeHit_nil
  | cons h hs =>
    have : readMessage ((writeHits C framing (h :: hs)).set 1 255) = none := by
      have e : (writeHits C framing (h :: hs)).set 1 255 =
          [0, 255, 0, 0, 12, 0, 0, 0] ++ ((encodeHit (toSignal C h)).drop 8 ++
            writeHits C framing hs) := rfl
      unfold readMessage
      rw [e, readBytes_append' (n := 8) rfl]
      have h1 : ofLE (List.take 4 [0, 255, 0, 0, 12, 0, 0, 0]) = 65280 := by decide
      simp only [h1, Option.bind_eq_bind, Option.bind_some]
      norm_num
    unfold decodeHit
    rw [this]
    rfl

/-! ## A concrete case -/

/-- Conversions that keep the low bits (any will do here). -/
def exConv : Conv UInt32 UInt64 where
  toD := UInt32.toUInt64
  toF := UInt64.toUInt32
  ofInt := fun n => UInt32.ofNat n.toNat
  toInt := fun x => .ok x.toNat

/-- A hit with index `n`, drift index -2, over 16 time steps, 3 bins wide. -/
def exHit (n : Int) : Hit UInt32 UInt64 :=
  { startFreqIndex := n, startFreqMHz := 0x40C0723F7CED9168, startTime := 7, duration := 288
    rateIndex := -2, driftRate := 0xBFE0000000000000, power := 0x3F800000, timeSpan := 16
    snr := 0x41200000, bandwidth := 0x40400000, binwidth := 3, rfi := [], coarseChannel := 0 }

/-- The bytes of a file with this hit. -/
example : writeHits exConv framing [exHit 300] =
    [0, 0, 0, 0, 12, 0, 0, 0,
     0, 0, 0, 0, 0, 0, 2, 0,
     4, 0, 0, 0, 9, 0, 0, 0,
     0, 0, 0, 0, 0, 0, 0, 0,
     0x68, 0x91, 0xED, 0x7C, 0x3F, 0x72, 0xC0, 0x40,
     44, 1, 0, 0, 16, 0, 0, 0,
     0, 0, 0, 0, 0, 0, 0xE0, 0xBF,
     0, 0, 0x20, 0x41, 0, 0, 0, 0,
     0, 0, 0, 0, 16, 0, 0, 0,
     0, 0, 0x80, 0x3F, 0, 0, 0x80, 0x3F,
     0xFE, 0xFF, 0xFF, 0xFF, 7, 0, 0, 0,
     32, 1, 0, 0, 0, 0, 0x40, 0x40,
     3, 0, 0, 0, 0, 0, 0, 0] := by
  decide +kernel

/-- Three hits, of which the last loses its last byte. -/
example : readHits exConv framing
    ((writeHits exConv framing [exHit 1, exHit 2, exHit 3]).take 311) = .ok [exHit 1, exHit 2] := by
  rw [C115_cut]
  rfl

/-- Three hits, of which the second is overwritten: the third is still there. -/
example : ∃ x, readHits exConv framing (writeHits exConv framing [exHit 1] ++
    ((encodeHit (toSignal exConv (exHit 2))).take 32 ++ List.replicate 72 255) ++
    writeHits exConv framing [exHit 3]) = .ok [exHit 1, x, exHit 3] := by
  obtain ⟨s, h⟩ := C115_damaged_values exConv [exHit 1] [exHit 3] (exHit 2) (List.replicate 72 255)
    (by simp)
  exact ⟨_, h⟩

/-- The hypothesis of `C115_any_file`. -/
example : ∃ hs, readHits exConv framing [1, 2, 3] = .ok hs ∧ 16 * hs.length ≤ 3 := by
  rcases C115_any_file exConv (fun x e h => by cases h) [1, 2, 3] with h | h
  · exact h
  · rw [readHits_refused exConv (show decodeHit [1, 2, 3] = none from rfl)] at h
    cases h

end Bliss.File.Capnp
