import Verif.Scan.Model
import Verif.File.Model

/-!
# Model of observation targets and cadences, and of their files

* `bliss/core/cadence.cpp` — targets, cadences;
* `bliss/core/scan.cpp:101-116`, `338-351` — a scan from channels in memory, choice of a device;
* `bliss/file_types/detail/cpnp_hit_builder.cpp:52-210`, `bliss/file_types/cpnp_files.cpp:64-154` —
  channels, scans, targets and cadences as Cap'n Proto messages and files.

Copies of a scan share the channels in memory (`shared_ptr`); here every copy has its own. The only
members changed through the pointers are the device, which every read sets again before use, and the
memoized hit list.
-/

namespace Bliss.Cadence

open Bliss.Hit (Hit)
open Bliss.Scan Bliss.File

variable {F D Dev P : Type}

/-! ## Targets and cadences -/

/-- `observation_target` (`cadence.hpp:15-66`). -/
structure Target (F D Dev P : Type) where
  scans : List (Scan F D Dev P)
  name : String
  device : Dev

/-- `cadence` (`cadence.hpp:73-129`). -/
structure Cadence (F D Dev P : Type) where
  targets : List (Target F D Dev P)
  device : Dev

/-- The loop of `extract_source_name_from_scans` (`cadence.cpp:12-25`) from the name found so far. -/
def nameLoop : String → List String → String
  | acc, [] => acc
  | acc, n :: rest =>
    if n = "" then nameLoop acc rest
    else if acc = "" then nameLoop n rest
    else if acc ≠ n then nameLoop (acc ++ ("::" ++ n)) rest
    else nameLoop acc rest

/-- `extract_source_name_from_scans` (`cadence.cpp:10-30`), on the names of the scans. -/
def sourceName (names : List String) : String :=
  let r := nameLoop "" names
  if r = "" then "unknown" else r

/-- `observation_target(std::vector<scan>)` (`cadence.cpp:32-37`). -/
def Target.make (dev : Dev) (scans : List (Scan F D Dev P)) : Target F D Dev P :=
  ⟨scans, sourceName (scans.map (fun s => s.hdr.sourceName)), dev⟩

/-- The condition of `cadence.cpp:63` and `149`: the scan is reported as not matching. -/
def mismatch (o : DOps D) (fch1 foff : D) (nchans : Int) (s : Scan F D Dev P) : Bool :=
  o.lt (o.abs (o.sub s.fch1 fch1)) (o.lit (1 / 1000000)) ||
  o.lt (o.abs (o.sub s.hdr.foff foff)) (o.lit (1 / 1000000)) ||
  decide (s.nchans ≠ nchans)

/-- `observation_target::validate_scan_consistency` (`cadence.cpp:46-70`). `int nchans` narrows the
64-bit count; counts are taken to fit. -/
def Target.validate (o : DOps D) (t : Target F D Dev P) : Bool :=
  match t.scans with
  | [] => true
  | s :: rest => (s :: rest).all (fun x => !mismatch o s.fch1 s.hdr.foff s.nchans x)

/-- `observation_target::get_number_coarse_channels` (`cadence.cpp:81-87`); without scans `_scans[0]`
is undefined. -/
def Target.numberCoarse (o : DOps D) (t : Target F D Dev P) : Outcome Int :=
  if t.validate o then
    match t.scans with
    | [] => .ub
    | s :: _ => .ok s.num
  else .throws .runtimeError

/-- `observation_target::get_coarse_channel_with_frequency` (`cadence.cpp:72-79`). -/
def Target.channelWithFrequency (o : DOps D) (t : Target F D Dev P) (f : D) : Outcome Int :=
  if t.validate o then
    match t.scans with
    | [] => .ub
    | s :: _ => .ok (Scan.channelWithFrequency o s f)
  else .throws .runtimeError

/-- The first scan of the first target that has one (`cadence.cpp:138-146`, `161-165`, `173-177`). -/
def firstScan : List (Target F D Dev P) → Option (Scan F D Dev P)
  | [] => none
  | t :: rest =>
    match t.scans with
    | [] => firstScan rest
    | s :: _ => some s

/-- `cadence::validate_scan_consistency` (`cadence.cpp:129-156`). -/
def Cadence.validate (o : DOps D) (c : Cadence F D Dev P) : Bool :=
  match firstScan c.targets with
  | none => true
  | some s => c.targets.all
      (fun t => t.scans.all (fun x => !mismatch o s.fch1 s.hdr.foff s.nchans x))

/-- `cadence::get_number_coarse_channels` (`cadence.cpp:170-180`). -/
def Cadence.numberCoarse (o : DOps D) (c : Cadence F D Dev P) : Outcome Int :=
  if c.validate o then
    match firstScan c.targets with
    | none => .throws .runtimeError
    | some s => .ok s.num
  else .throws .runtimeError

/-- `cadence::get_coarse_channel_with_frequency` (`cadence.cpp:158-168`). -/
def Cadence.channelWithFrequency (o : DOps D) (c : Cadence F D Dev P) (f : D) : Outcome Int :=
  if c.validate o then
    match firstScan c.targets with
    | none => .throws .runtimeError
    | some s => .ok (Scan.channelWithFrequency o s f)
  else .throws .runtimeError

/-- `observation_target::slice_observation_channels` (`cadence.cpp:89-95`): a default-constructed
target that receives the sliced scans; `dflt` is `default_device`. -/
def Target.slice (o : DOps D) (dflt : Dev) (t : Target F D Dev P) (start count : Int) :
    Target F D Dev P :=
  ⟨t.scans.map (fun s => Scan.slice o s start count), "", dflt⟩

/-- `cadence::slice_cadence_channels` (`cadence.cpp:182-188`). -/
def Cadence.slice (o : DOps D) (dflt : Dev) (c : Cadence F D Dev P) (start count : Int) :
    Cadence F D Dev P :=
  ⟨c.targets.map (fun t => t.slice o dflt start count), dflt⟩

/-! ## Devices -/

/-- `scan::set_device` (`scan.cpp:338-351`): the device is stored before it is checked. -/
def Scan.setDevice (devOk : Dev → Bool) (d : Dev) (s : Scan F D Dev P) :
    Scan F D Dev P × Outcome Unit :=
  if devOk d then
    ({ s with device := d, cache := fun k => (s.cache k).map (fun c => { c with device := d }) },
      .ok ())
  else ({ s with device := d }, .throws .runtimeError)

/-- The loops of `cadence.cpp:110-112` and `204-206`: stop at the first exception. -/
def setAll {A : Type} (f : A → A × Outcome Unit) : List A → List A × Outcome Unit
  | [] => ([], .ok ())
  | a :: rest =>
    match f a with
    | (a', .ok ()) => let r := setAll f rest; (a' :: r.1, r.2)
    | (a', .throws e) => (a' :: rest, .throws e)
    | (a', .ub) => (a' :: rest, .ub)

/-- `observation_target::set_device` (`cadence.cpp:101-113`). -/
def Target.setDevice (devOk : Dev → Bool) (d : Dev) (t : Target F D Dev P) :
    Target F D Dev P × Outcome Unit :=
  if devOk d then
    let r := setAll (Scan.setDevice devOk d) t.scans
    (⟨r.1, t.name, d⟩, r.2)
  else (t, .throws .runtimeError)

/-- `cadence::set_device` (`cadence.cpp:194-207`). -/
def Cadence.setDevice (devOk : Dev → Bool) (d : Dev) (c : Cadence F D Dev P) :
    Cadence F D Dev P × Outcome Unit :=
  if devOk d then
    let r := setAll (Target.setDevice devOk d) c.targets
    (⟨r.1, d⟩, r.2)
  else (c, .throws .runtimeError)

/-! ## Messages -/

/-- `Filterbank` (`hit.capnp:55-85`), the members that are written or read. -/
structure Md (D : Type) where
  sourceName : String
  fch1 : D
  foff : D
  tstart : D
  tsamp : D
  ra : D
  dec : D
  telescopeId : Int
  numTimesteps : Int
  numChannels : Int

/-- `CoarseChannel` (`hit.capnp:105-108`). -/
structure ChannelMsg (F D : Type) where
  md : Md D
  hits : List (Signal F D)

/-- `Scan` (`hit.capnp:110-113`). -/
structure ScanMsg (F D : Type) where
  md : Md D
  channels : List (ChannelMsg F D)

/-- What a reader sees in a message that was never written: zeros and empty lists. -/
def ChannelMsg.unset (o : DOps D) : ChannelMsg F D :=
  ⟨⟨"", o.ofInt 0, o.ofInt 0, o.ofInt 0, o.ofInt 0, o.ofInt 0, o.ofInt 0, 0, 0, 0⟩, []⟩

/-- `std::optional::value`. -/
def value {A : Type} : Option A → Outcome A
  | none => .throws .badOptional
  | some a => .ok a

/-- Lines 54-67 and 121-133: metadata of a channel or scan. -/
def toMd (fch1 : D) (h : Header D) (ntsteps nchans : Int) : Outcome (Md D) := do
  let dec ← value h.srcDej
  let ra ← value h.srcRaj
  let tid ← value h.telescopeId
  pure ⟨h.sourceName, fch1, h.foff, h.tstart, h.tsamp, ra, dec, wrap32 tid, wrap32 ntsteps,
    wrap32 nchans⟩

/-- `bliss_coarse_channel_to_capnp_coarse_channel_message` (`cpnp_hit_builder.cpp:52-80`). -/
def toChannelMsg (C : Conv F D) (c : Channel F D Dev P) : Outcome (ChannelMsg F D) := do
  let md ← toMd c.fch1 c.hdr c.ntsteps c.nchans
  let hs ← c.getHits
  pure ⟨md, hs.map (toSignal C)⟩

/-- `capnp_coarse_channel_message_to_bliss_coarse_channel` (`cpnp_hit_builder.cpp:82-117`); `noData`
stands for the empty data and mask, `cpu` for the default device. -/
def ofChannelMsg (o : DOps D) (C : Conv F D) (noData : P) (cpu : Dev) (m : ChannelMsg F D) :
    Outcome (Channel F D Dev P) := do
  let hs ← mapAll (ofSignal C) m.hits
  pure
    { fch1 := m.md.fch1
      hdr := { foff := m.md.foff, machineId := some 0, nbits := 32, nifs := 0
               sourceName := m.md.sourceName, srcDej := some m.md.dec, srcRaj := some m.md.ra
               telescopeId := some m.md.telescopeId, tsamp := m.md.tsamp, tstart := m.md.tstart
               dataType := 1, azStart := some (o.ofInt 0), zaStart := some (o.ofInt 0) }
      nchans := m.md.numChannels
      ntsteps := m.md.numTimesteps
      number := 0
      data := .other noData
      device := cpu
      hits := some (.ok hs) }

/-- Lines 138-146: channels `i, …, i+k-1`; a channel that is not in memory is left out of the
message. -/
def channelMsgs (o : DOps D) (devOk : Dev → Bool) (C : Conv F D) : Nat → Int → Scan F D Dev P →
    Outcome (List (ChannelMsg F D))
  | 0, _, _ => .ok []
  | k + 1, i, s =>
    match peek devOk s i with
    | (_, .throws e) => .throws e
    | (_, .ub) => .ub
    | (s', .ok none) => do
      let rest ← channelMsgs o devOk C k (i + 1) s'
      pure (ChannelMsg.unset o :: rest)
    | (s', .ok (some c)) => do
      let m ← toChannelMsg C c
      let rest ← channelMsgs o devOk C k (i + 1) s'
      pure (m :: rest)

/-- `bliss_scan_to_capnp_scan` (`cpnp_hit_builder.cpp:119-147`). A negative number of channels counts
as zero. -/
def toScanMsg (o : DOps D) (devOk : Dev → Bool) (C : Conv F D) (s : Scan F D Dev P) :
    Outcome (ScanMsg F D) := do
  let md ← toMd s.fch1 s.hdr s.ntsteps s.nchans
  let cs ← channelMsgs o devOk C s.num.toNat 0 s
  pure ⟨md, cs⟩

/-- Members that the constructor of a scan from channels leaves uninitialised
(`scan.cpp:101-116`). -/
structure Junk where
  fine : Int
  nbits : Int
  nifs : Int
  dataType : Int

/-- `scan(std::map<int, std::shared_ptr<coarse_channel>>)` (`scan.cpp:101-116`) for the keys
`0, 1, …`. -/
def ofChannels (o : DOps D) (j : Junk) (cpu : Dev) (cs : List (Channel F D Dev P)) :
    Outcome (Scan F D Dev P) :=
  match cs with
  | [] => .throws .outOfRange
  | c :: rest => .ok
      { cache := fun k => if k < 0 then none else (c :: rest)[k.toNat]?
        file := none
        pipeline := []
        fch1 := c.fch1
        hdr := { foff := c.hdr.foff, machineId := none, nbits := j.nbits, nifs := j.nifs
                 sourceName := c.hdr.sourceName, srcDej := none, srcRaj := none
                 telescopeId := none, tsamp := c.hdr.tsamp, tstart := c.hdr.tstart
                 dataType := j.dataType, azStart := none, zaStart := none }
        nchans := c.nchans * ((c :: rest).length : Int)
        fine := j.fine
        num := ((c :: rest).length : Int)
        offset := 0
        ntsteps := c.ntsteps
        duration := o.mul (o.ofInt c.ntsteps) c.hdr.tsamp
        device := cpu }

/-- `capnp_scan_message_to_bliss_scan` (`cpnp_hit_builder.cpp:149-170`). -/
def ofScanMsg (o : DOps D) (C : Conv F D) (j : Junk) (noData : P) (cpu : Dev) (m : ScanMsg F D) :
    Outcome (Scan F D Dev P) := do
  let cs ← mapAll (ofChannelMsg o C noData cpu) m.channels
  let s ← ofChannels o j cpu cs
  pure
    { s with
      fch1 := m.md.fch1
      hdr := { s.hdr with
        srcRaj := some m.md.ra, srcDej := some m.md.dec, sourceName := m.md.sourceName
        tstart := m.md.tstart, tsamp := m.md.tsamp, foff := m.md.foff } }

/-- `bliss_observation_target_to_capnp_observation_target_message`
(`cpnp_hit_builder.cpp:172-179`). -/
def toTargetMsg (o : DOps D) (devOk : Dev → Bool) (C : Conv F D) (t : Target F D Dev P) :
    Outcome (List (ScanMsg F D)) :=
  mapAll (toScanMsg o devOk C) t.scans

/-- `capnp_observation_target_message_to_bliss_observation_target`
(`cpnp_hit_builder.cpp:181-190`): into a default-constructed target. -/
def ofTargetMsg (o : DOps D) (C : Conv F D) (j : Junk) (noData : P) (cpu dflt : Dev)
    (m : List (ScanMsg F D)) : Outcome (Target F D Dev P) := do
  let ss ← mapAll (ofScanMsg o C j noData cpu) m
  pure ⟨ss, "", dflt⟩

/-- `bliss_cadence_to_capnp_cadence_message` (`cpnp_hit_builder.cpp:192-199`). -/
def toCadenceMsg (o : DOps D) (devOk : Dev → Bool) (C : Conv F D) (c : Cadence F D Dev P) :
    Outcome (List (List (ScanMsg F D))) :=
  mapAll (toTargetMsg o devOk C) c.targets

/-- `capnp_cadence_message_to_cadence` (`cpnp_hit_builder.cpp:201-210`). -/
def ofCadenceMsg (o : DOps D) (C : Conv F D) (j : Junk) (noData : P) (cpu dflt : Dev)
    (m : List (List (ScanMsg F D))) : Outcome (Cadence F D Dev P) := do
  let ts ← mapAll (ofTargetMsg o C j noData cpu dflt) m
  pure ⟨ts, dflt⟩

/-! ## Files of one message -/

/-- `write_…_to_capnp_file` (`cpnp_files.cpp:64-73`, `88-97`, `111-121`, `135-144`): the file is
truncated when it is opened (`raii_file_helpers.cpp:14`), then the message is built, then written.
The contents of the file afterwards and the outcome. -/
def writeFile {M : Type} (fr : Framing M) (build : Outcome M) (_before : List UInt8) :
    List UInt8 × Outcome Unit :=
  match build with
  | .ok m => (fr.encode m, .ok ())
  | .throws e => ([], .throws e)
  | .ub => ([], .ub)

/-- `read_…_from_capnp_file` (`cpnp_files.cpp:75-86`, `99-109`, `123-133`, `146-156`): exceptions of
the library are not caught; they are reported as a runtime error here. -/
def readFile {M A : Type} (fr : Framing M) (conv : M → Outcome A) (bytes : List UInt8) : Outcome A :=
  match fr.decode bytes with
  | none => .throws .runtimeError
  | some (m, _) => conv m

end Bliss.Cadence
