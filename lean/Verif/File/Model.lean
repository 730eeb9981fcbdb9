import Verif.Base
import Verif.Hit.Model

/-!
# Model of hit (de)serialization

* `bliss/core/hit.cpp:13-37`, `bliss/core/include/core/hit.hpp:82-96` — the pickling state tuple;
* `bliss/file_types/detail/cpnp_hit_builder.cpp:8-50` — one hit as a Cap'n Proto `Signal`;
* `bliss/file_types/cpnp_files.cpp:23-62`, `bliss/file_types/events_file.cpp:23-72` — files of
  hits and of events;
* `bliss/file_types/hits_file.cpp:16-83` — choice of the format.

`F` is `float` and `D` is `double`. `Conv` holds the conversions the compiler inserts.
-/

namespace Bliss.File

open Bliss Bliss.Hit

/-- Implicit conversions between `float`, `double` and 64-bit integers. -/
structure Conv (F D : Type) where
  /-- `float` to `double` -/
  toD : F → D
  /-- `double` to `float` -/
  toF : D → F
  /-- `int64_t` to `float` -/
  ofInt : Int → F
  /-- `float` to `int64_t`; undefined outside the range of `int64_t` and for NaN -/
  toInt : F → Outcome Int

variable {F D : Type}

/-! ## State tuple -/

/-- `hit::state_tuple` (`hit.hpp:82-92`). -/
structure State (F D : Type) where
  startFreqIndex : Int
  startFreqMHz : F
  rateIndex : Int
  driftRate : F
  power : F
  timeSpan : F
  snr : F
  bandwidth : D
  binwidth : Int

/-- `hit::get_state` (`hit.cpp:13-25`). -/
def getState (C : Conv F D) (h : Hit F D) : State F D :=
  ⟨h.startFreqIndex, C.toF h.startFreqMHz, h.rateIndex, C.toF h.driftRate, C.toF h.power,
    C.ofInt h.timeSpan, h.snr, C.toD h.bandwidth, h.binwidth⟩

/-- `hit::set_state` on an object `g` (`hit.cpp:27-37`): the members that are not in the tuple keep
the value they have in `g`. -/
def setState (C : Conv F D) (g : Hit F D) (s : State F D) : Outcome (Hit F D) := do
  let span ← C.toInt s.timeSpan
  pure
    { startFreqIndex := s.startFreqIndex, startFreqMHz := C.toD s.startFreqMHz,
      startTime := g.startTime, duration := g.duration, rateIndex := s.rateIndex,
      driftRate := C.toD s.driftRate, power := C.toD s.power, timeSpan := span, snr := s.snr,
      bandwidth := C.toF s.bandwidth, binwidth := s.binwidth, rfi := g.rfi,
      coarseChannel := g.coarseChannel }

/-! ## Cap'n Proto `Signal` -/

/-- Conversion to `int32_t`: keeps the low 32 bits. -/
def wrap32 (n : Int) : Int := (n + 2 ^ 31) % 2 ^ 32 - 2 ^ 31

/-- `Signal` (`hit.capnp:10-53`), the members that are read or written; the others keep their
default. -/
structure Signal (F D : Type) where
  frequency : D
  index : Int
  driftSteps : Int
  driftRate : D
  driftIndex : Int
  snr : F
  numTimesteps : Int
  power : F
  incoherentPower : F
  startTime : F
  duration : F
  bandwidth : F
  binwidth : F

/-- `bliss_hit_to_capnp_signal_message` (`cpnp_hit_builder.cpp:8-28`). -/
def toSignal (C : Conv F D) (h : Hit F D) : Signal F D :=
  { frequency := h.startFreqMHz, index := wrap32 h.startFreqIndex,
    driftSteps := wrap32 h.timeSpan, driftRate := h.driftRate, driftIndex := wrap32 h.rateIndex,
    snr := h.snr, numTimesteps := wrap32 h.timeSpan, power := C.toF h.power,
    incoherentPower := C.toF h.power, startTime := C.toF h.startTime,
    duration := C.toF h.duration, bandwidth := h.bandwidth, binwidth := C.ofInt h.binwidth }

/-- `capnp_signal_message_to_bliss_hit` (`cpnp_hit_builder.cpp:30-50`): the flag counts stay empty
and the coarse channel number keeps its default 0. -/
def ofSignal (C : Conv F D) (s : Signal F D) : Outcome (Hit F D) := do
  let bw ← C.toInt s.binwidth
  pure
    { startFreqIndex := s.index, startFreqMHz := s.frequency, startTime := C.toD s.startTime,
      duration := C.toD s.duration, rateIndex := s.driftIndex, driftRate := s.driftRate,
      power := C.toD s.power, timeSpan := s.numTimesteps, snr := s.snr, bandwidth := s.bandwidth,
      binwidth := bw, rfi := [], coarseChannel := 0 }

/-! ## Streams of messages

`capnp::writeMessageToFd` and `capnp::StreamFdMessageReader` are library code outside the
repository. `Framing` is what the files rely on. -/

/-- Cap'n Proto stream framing of messages of type `M`. `decode` reads one message from the
remaining bytes of a file and returns the rest, or `none` for a thrown `kj::Exception`. -/
structure Framing (M : Type) where
  encode : M → List UInt8
  decode : List UInt8 → Option (M × List UInt8)

/-- The stream as a whole: `for (...) writeMessageToFd(fd, message)` into a file opened with
`O_TRUNC` (`raii_file_helpers.cpp:14`). -/
def writeAll {M : Type} (fr : Framing M) (ms : List M) : List UInt8 := ms.flatMap fr.encode

/-- `while (true) { try { read; convert; push_back } catch (kj::Exception &) { break; } }`
(`cpnp_files.cpp:45-60`, `events_file.cpp:50-70`). `fuel` bounds the iterations; the theorems
use the number of bytes, which every iteration decreases. -/
def readLoop {M A : Type} (fr : Framing M) (conv : M → Outcome A) :
    Nat → List UInt8 → Outcome (List A)
  | 0, _ => .ok []
  | n + 1, bytes =>
    match fr.decode bytes with
    | none => .ok []
    | some (m, rest) => do
      let a ← conv m
      let as ← readLoop fr conv n rest
      pure (a :: as)

/-- `write_hits_to_capnp_file` (`cpnp_files.cpp:23-38`). -/
def writeHits (C : Conv F D) (fr : Framing (Signal F D)) (hs : List (Hit F D)) : List UInt8 :=
  writeAll fr (hs.map (toSignal C))

/-- `read_hits_from_capnp_file` (`cpnp_files.cpp:40-62`). -/
def readHits (C : Conv F D) (fr : Framing (Signal F D)) (bytes : List UInt8) :
    Outcome (List (Hit F D)) :=
  readLoop fr (ofSignal C) bytes.length bytes

/-- `event` (`core/include/core/event.hpp:10-21`). -/
structure Event (F D : Type) where
  hits : List (Hit F D)
  startingFrequency : D
  averagePower : F
  averageBandwidth : F
  averageSnr : F
  averageDrift : D
  startSeconds : D
  endSeconds : D

/-- All elements of a list through a conversion that may be undefined. -/
def mapAll {A B : Type} (f : A → Outcome B) : List A → Outcome (List B)
  | [] => .ok []
  | a :: as => do
    let b ← f a
    let bs ← mapAll f as
    pure (b :: bs)

/-- The body of the reading loop (`events_file.cpp:53-63`): a new event whose members are the
defaults of `event.hpp` (all zero) except for the hits. -/
def ofEventMessage (C : Conv F D) (zF : F) (zD : D) (m : List (Signal F D)) :
    Outcome (Event F D) := do
  let hs ← mapAll (ofSignal C) m
  pure ⟨hs, zD, zF, zF, zF, zD, zD, zD⟩

/-- `write_events_to_file` (`events_file.cpp:23-42`): one message with the list of signals. -/
def writeEvents (C : Conv F D) (fr : Framing (List (Signal F D))) (es : List (Event F D)) :
    List UInt8 :=
  writeAll fr (es.map (fun e => e.hits.map (toSignal C)))

/-- `read_events_from_file` (`events_file.cpp:44-72`). -/
def readEvents (C : Conv F D) (zF : F) (zD : D) (fr : Framing (List (Signal F D)))
    (bytes : List UInt8) : Outcome (List (Event F D)) :=
  readLoop fr (ofEventMessage C zF zD) bytes.length bytes

/-! ## Format dispatch -/

/-- The two file formats. -/
inductive Format
  | dat
  | capnp
  deriving DecidableEq

/-- `ends_with` (`hits_file.cpp:15-17`). -/
def endsWith (s suffix : List Char) : Bool :=
  decide (suffix.length ≤ s.length) && decide (s.drop (s.length - suffix.length) = suffix)

/-- The format string after the extension check (`hits_file.cpp:21-27`, `54-60`). -/
def inferFormat (path format : List Char) : List Char :=
  if format = [] then
    if endsWith path ".dat".toList then "dat".toList
    else if endsWith path ".capnp".toList || endsWith path ".cp".toList then "capnp".toList
    else format
  else format

/-- `write_scan_hits_to_file` and its like: the format that is written
(`hits_file.cpp:53-71`). -/
def writeFormat (path format : List Char) : Format :=
  let f := inferFormat path format
  if f = "dat".toList then .dat
  else if f = "capnp".toList then .capnp
  else .capnp

/-- `read_scan_hits_from_file` (and `read_hits_from_file`): the format that is read, or the
exception (`hits_file.cpp:73-83`, `40-50`). The path is not looked at. -/
def readFormat (_path format : List Char) : Outcome Format :=
  if format = [] ∨ format = "capnp".toList then .ok .capnp
  else if format = "dat".toList ∨ format = "turboseti".toList then .throws .runtimeError
  else .throws .invalidArgument

end Bliss.File
