import Verif.Hit.Model
import Mathlib.Data.Rat.Defs

/-!
# Model of scans

`bliss/core/scan.cpp`, `bliss/core/coarse_channel.cpp`. `D` is `double`, `Dev` a device, `P`
whatever else the pipeline attaches to a channel (computed data, masks, noise estimate, drift
plane). Transforms are functions from channels to channels that may throw. Keys of the channel map
are `int` in the source and unbounded here.
-/

namespace Bliss.Scan

open Bliss.Hit (Hit)

/-- The double arithmetic used by scans. -/
structure DOps (D : Type) where
  add : D → D → D
  sub : D → D → D
  mul : D → D → D
  div : D → D → D
  abs : D → D
  lt : D → D → Bool
  ofInt : Int → D
  /-- `std::floor`, converted to `int` -/
  floor : D → Int
  /-- a literal of the source -/
  lit : ℚ → D

/-- Fields of a filterbank that a coarse channel takes over from its scan unchanged
(`scan.cpp:242-260`). -/
structure Header (D : Type) where
  foff : D
  machineId : Option Int
  nbits : Int
  nifs : Int
  sourceName : String
  srcDej : Option D
  srcRaj : Option D
  telescopeId : Option Int
  tsamp : D
  tstart : D
  dataType : Int
  azStart : Option D
  zaStart : Option D

/-- What `data()` and `mask()` will deliver: a window of the file, read on demand, or something a
transform has put there. -/
inductive Source (P : Type)
  | file (offset count : List Int)
  | other (p : P)

/-- `coarse_channel` (`coarse_channel.hpp`). `hits = none` is the null pointer; otherwise the stored
or computed list (`coarse_channel.cpp:252-261`), whose computation may throw. -/
structure Channel (F D Dev P : Type) where
  fch1 : D
  hdr : Header D
  nchans : Int
  ntsteps : Int
  number : Int
  data : Source P
  device : Dev
  hits : Option (Outcome (List (Hit F D)))

/-- `scan` (`scan.hpp:130-171`). `file` is what `get_data_shape()` of the file delivers, `none` the
null handle. -/
structure Scan (F D Dev P : Type) where
  cache : Int → Option (Channel F D Dev P)
  file : Option (Outcome (List Int))
  pipeline : List (Channel F D Dev P → Outcome (Channel F D Dev P))
  fch1 : D
  hdr : Header D
  nchans : Int
  fine : Int
  num : Int
  offset : Int
  ntsteps : Int
  duration : D
  device : Dev

variable {F D Dev P : Type}

/-- `value` fits `int`. -/
def fitsInt (x : Int) : Bool := decide (-2147483648 ≤ x) && decide (x < 2147483648)

/-- `coarse_channel::set_device` (`coarse_channel.cpp:275-284`); `devOk` says whether the device can
be used (not CUDA, or a valid CUDA device). -/
def Channel.setDevice (devOk : Dev → Bool) (dev : Dev) (c : Channel F D Dev P) :
    Outcome (Channel F D Dev P) :=
  if devOk dev then .ok { c with device := dev } else .throws .runtimeError

/-- `scan.cpp:221-261`: a coarse channel that is not in memory. A missing file handle, a shape with
fewer than three dimensions and overflow of the `int` product of line 239 are undefined. -/
def fresh (o : DOps D) (devOk : Dev → Bool) (s : Scan F D Dev P) (i : Int) :
    Outcome (Channel F D Dev P) :=
  match s.file with
  | none => .ub
  | some shape => do
    let count ← shape
    match count with
    | t :: f :: _ :: rest =>
      if fitsInt (s.fine * i) then
        Channel.setDevice devOk s.device
          { fch1 := o.add s.fch1 (o.mul s.hdr.foff (o.ofInt (s.fine * i)))
            hdr := s.hdr
            nchans := s.fine
            ntsteps := t
            number := i + s.offset
            data := .file [0, 0, s.fine * (i + s.offset)] (t :: f :: s.fine :: rest)
            device := s.device
            hits := none }
      else .ub
    | _ => .ub

/-- The transforms applied in order (lines 266-270). -/
def applyAll (ts : List (Channel F D Dev P → Outcome (Channel F D Dev P)))
    (c : Channel F D Dev P) : Outcome (Channel F D Dev P) :=
  ts.foldlM (fun c t => t c) c

/-- Lines 264-270: set the device of the channel in memory, then transform a copy. -/
def finish (devOk : Dev → Bool) (s : Scan F D Dev P) (key : Int) (c : Channel F D Dev P) :
    Scan F D Dev P × Outcome (Channel F D Dev P) :=
  match Channel.setDevice devOk s.device c with
  | .ok c' => ({ s with cache := fun k => if k = key then some c' else s.cache k },
      applyAll s.pipeline c')
  | .throws e => ({ s with cache := fun k => if k = key then some c else s.cache k }, .throws e)
  | .ub => (s, .ub)

/-- `scan::read_coarse_channel` (lines 214-271): the scan afterwards and the channel. -/
def read (o : DOps D) (devOk : Dev → Bool) (s : Scan F D Dev P) (i : Int) :
    Scan F D Dev P × Outcome (Channel F D Dev P) :=
  if i < 0 ∨ i > s.num then (s, .throws .outOfRange)
  else
    match s.cache (i + s.offset) with
    | some c => finish devOk s (i + s.offset) c
    | none =>
      match fresh o devOk s i with
      | .ok c => finish devOk s (i + s.offset) c
      | .throws e => (s, .throws e)
      | .ub => (s, .ub)

/-- `scan::peak_coarse_channel` (lines 274-291); `none` is the null pointer. -/
def peek (devOk : Dev → Bool) (s : Scan F D Dev P) (i : Int) :
    Scan F D Dev P × Outcome (Option (Channel F D Dev P)) :=
  if i < 0 ∨ i > s.num then (s, .throws .outOfRange)
  else
    match s.cache (i + s.offset) with
    | some c =>
      let r := finish devOk s (i + s.offset) c
      (r.1, r.2.bind (fun c => .ok (some c)))
    | none => (s, .ok none)

/-- `scan::add_coarse_channel_transform` (lines 293-295). -/
def addTransform (t : Channel F D Dev P → Outcome (Channel F D Dev P)) (s : Scan F D Dev P) :
    Scan F D Dev P :=
  { s with pipeline := s.pipeline ++ [t] }

/-- `scan::set_fch1` (lines 386-388). -/
def setFch1 (f : D) (s : Scan F D Dev P) : Scan F D Dev P := { s with fch1 := f }

/-- `scan::get_coarse_channel_with_frequency` (lines 297-302). -/
def channelWithFrequency (o : DOps D) (s : Scan F D Dev P) (f : D) : Int :=
  let bandFraction := o.div (o.div (o.sub f s.fch1) s.hdr.foff) (o.ofInt s.nchans)
  o.floor (o.mul bandFraction (o.ofInt s.num))

/-- `scan::slice_scan_channels` (lines 365-381). -/
def slice (o : DOps D) (s : Scan F D Dev P) (start count : Int) : Scan F D Dev P :=
  let n := if count = -1 then s.num - start else count
  { s with
    offset := s.offset + start
    num := n
    fch1 := o.add s.fch1 (o.mul (o.mul s.hdr.foff (o.ofInt s.fine)) (o.ofInt start))
    nchans := n * s.fine }

/-- `catch (const std::logic_error &)`: the exceptions derived from `std::logic_error`. -/
def isLogicError : Err → Bool
  | .logicError | .outOfRange | .invalidArgument | .lengthError => true
  | .runtimeError | .badOptional => false

/-- `coarse_channel::hits` (`coarse_channel.cpp:252-261`). -/
def Channel.getHits (c : Channel F D Dev P) : Outcome (List (Hit F D)) :=
  match c.hits with
  | none => .throws .logicError
  | some h => h

/-- `scan::hits` (lines 316-331), channels `i, i+1, …, i+k-1`. -/
def hitsFrom (o : DOps D) (devOk : Dev → Bool) : Nat → Int → Scan F D Dev P →
    Scan F D Dev P × Outcome (List (Hit F D))
  | 0, _, s => (s, .ok [])
  | k + 1, i, s =>
    match read o devOk s i with
    | (s', .throws e) => (s', .throws e)
    | (s', .ub) => (s', .ub)
    | (s', .ok c) =>
      match c.getHits with
      | .ub => (s', .ub)
      | .throws e =>
        if isLogicError e then hitsFrom o devOk k (i + 1) s' else (s', .throws e)
      | .ok hs =>
        let r := hitsFrom o devOk k (i + 1) s'
        (r.1, r.2.bind (fun rest => .ok (hs ++ rest)))

/-- `scan::hits`. -/
def hits (o : DOps D) (devOk : Dev → Bool) (s : Scan F D Dev P) :
    Scan F D Dev P × Outcome (List (Hit F D)) :=
  hitsFrom o devOk s.num.toNat 0 s

/-! ## Constructing scans -/

/-- `known_channelizations` (lines 29-41): fine channels per coarse, frequency and time
resolution. -/
def known : List (Int × ℚ × ℚ) :=
  [(1033216, 284 / 100, 1798 / 100), (8, 366210, 34953 / 100000000), (1024, 2860, 106 / 100),
   (999424, 293 / 100, 174 / 10), (8, 366210, 34953 / 100000000), (1024, 2860, 102 / 100),
   (1048576, 279 / 100, 1825 / 100), (8, 366210, 34953 / 100000000), (1024, 2860, 107 / 100)]

/-- Lines 57: both resolutions are within .1 of the expected ones. -/
def resolutionsMatch (o : DOps D) (foff tsamp : D) (f t : ℚ) : Bool :=
  o.lt (o.abs (o.sub (o.abs foff) (o.lit f))) (o.lit (1 / 10)) &&
  o.lt (o.abs (o.sub (o.abs tsamp) (o.lit t))) (o.lit (1 / 10))

/-- Lines 50-60. -/
def inferKnown (o : DOps D) (n : Int) (foff tsamp : D) : List (Int × ℚ × ℚ) → Option (Int × Int)
  | [] => none
  | (fine, f, t) :: rest =>
    if n.tdiv fine * fine = n ∧ resolutionsMatch o foff tsamp f t = true then some (n.tdiv fine, fine)
    else inferKnown o n foff tsamp rest

/-- Lines 68-94: split into pieces of about `common` channels; dividing by zero is undefined. -/
def inferCommon (n common : Int) : Outcome (Option (Int × Int)) :=
  let coarse := n.tdiv common
  if coarse = 0 then .ub
  else
    let fine := common + (n.tmod common).tdiv coarse
    .ok (if fine * coarse = n then some (coarse, fine) else none)

/-- `infer_number_coarse_channels` (lines 48-99). -/
def infer (o : DOps D) (n : Int) (foff tsamp : D) : Outcome (Int × Int) :=
  match inferKnown o n foff tsamp known with
  | some r => .ok r
  | none => do
    match ← inferCommon n 262144 with
    | some r => .ok r
    | none =>
      match ← inferCommon n 1000000 with
      | some r => .ok r
      | none => .ok (1, n)

/-- The attributes of a filterbank file that `scan`'s constructor reads; `nchans` is optional in the
file (lines 176-180). -/
structure Attrs (D : Type) where
  fch1 : D
  hdr : Header D
  nchans : Option Int

/-- `scan::scan(h5_filterbank_file, int)` (lines 118-209). Reading the uninitialised channel count
and dividing by zero are undefined; `fineGiven = 0` asks for inference. A shape of other than three
dimensions leaves the time fields uninitialised, here an undefined construction. -/
def openFile (o : DOps D) (dev : Dev) (a : Attrs D) (shape : Outcome (List Int)) (fineGiven : Int) :
    Outcome (Scan F D Dev P) :=
  match a.nchans with
  | none => .ub
  | some nchans => do
    let dims ← shape
    match dims with
    | [t, _, _] => do
      let (num, fine) ← if fineGiven = 0 then
          infer o nchans (o.mul (o.lit 1000000) a.hdr.foff) a.hdr.tsamp
        else .ok (nchans.tdiv fineGiven, fineGiven)
      pure
        { cache := fun _ => none
          file := some shape
          pipeline := []
          fch1 := a.fch1
          hdr := a.hdr
          nchans := nchans
          fine := fine
          num := num
          offset := 0
          ntsteps := t
          duration := o.mul (o.ofInt t) a.hdr.tsamp
          device := dev }
    | _ => .ub

end Bliss.Scan
