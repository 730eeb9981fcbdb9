import Verif.Base
import Verif.Misc.Deferred
import Mathlib.Data.List.Basic

/-!
# Coarse channel objects (C108, C109)

Models `bliss::coarse_channel` (bliss/core/coarse_channel.cpp) and
`bliss::frequency_drift_plane` (bliss/core/frequency_drift_plane.cpp) as a state machine. The
objects hold pointers to shared cells: the array or function behind the data and behind the mask,
the list of hits or the function that finds them, the drift plane or the function that computes it.
A history is any sequence of creations, copies, settings, reads and device moves.

Not modelled: the scalar metadata (see `Verif/Scan/Model.lean`), threads, and failure of a move
between devices. The functions handed in may throw. `set_device(std::string_view)` parses the name
and calls `set_device(dev)` (coarse_channel.cpp lines 286-290); only the latter is modelled here,
parsing is in `Verif/Misc/Device.lean`.
-/

namespace Bliss.Channel

open Bliss.Deferred (Cell Policy)

/-- What the objects get from outside. `arr f k`, `hits f k`, `plane f k` are what the function
named `f` does at its `k`-th call: it returns a value or throws. `move` is `ndarray::to(device)`.
`usable` says that `set_device` accepts the device (the check of coarse_channel.cpp lines
276-282). A computed plane is its array together with the three arrays of flag counts. -/
structure Env (A L Dev : Type) where
  arr : Nat → Nat → Except Err A
  hits : Nat → Nat → Except Err L
  plane : Nat → Nat → Except Err (A × A × A × A)
  move : Dev → A → A
  usable : Dev → Bool
  cpu : Dev
  dflt : Dev

/-- An `ndarray_deferred`, bland/bland/include/bland/ndarray_deferred.hpp lines 53-55: shared cell
(`none` is the null pointer), device and policy. -/
structure DObj (Dev : Type) where
  cell : Option Nat
  device : Option Dev
  policy : Policy

/-- A `frequency_drift_plane`, bliss/core/include/core/frequency_drift_plane.hpp lines 43-57, with
the three arrays of `integrated_flags` (integrate_drifts_options.hpp lines 26-32). The rate table
and the number of steps are constants of the object and left out; `magnitude` and `sigma_clip` are
never filled; the `_device` of the flags is overwritten before each use. -/
structure PObj (A Dev : Type) where
  drifts : DObj Dev
  flags : A × A × A
  device : Dev

/-- `std::variant<std::list<hit>, std::function<...>>`, coarse_channel.hpp line 217. -/
inductive HCell (L : Type)
  | val (l : L)
  | fn (f : Nat)

/-- `std::variant<frequency_drift_plane, std::function<...>>`, coarse_channel.hpp lines 214-215. -/
inductive PCell (A Dev : Type)
  | val (p : PObj A Dev)
  | fn (f : Nat)

/-- The state of a `coarse_channel`, coarse_channel.hpp lines 209-219. -/
structure Chan (N Dev : Type) where
  data : DObj Dev
  mask : DObj Dev
  noise : Option N
  plane : Option Nat
  hits : Option Nat
  device : Dev

/-- All channels and planes of the program, all shared cells, and how often each function ran. -/
structure State (A L N Dev : Type) where
  chans : List (Chan N Dev)
  planes : List (PObj A Dev)
  cells : List (Cell A)
  hcells : List (HCell L)
  pcells : List (PCell A Dev)
  acalls : Nat → Nat
  hcalls : Nat → Nat
  pcalls : Nat → Nat

/-- Before anything is created. -/
def State.empty {A L N Dev : Type} : State A L N Dev :=
  ⟨[], [], [], [], [], fun _ => 0, fun _ => 0, fun _ => 0⟩

/-- The two arrays of a channel. -/
inductive Fld
  | data | mask
  deriving DecidableEq, Repr

/-- The calls a program can make. Numbers `i j` are positions of channels, `p` of planes, in the
order of creation; `f` names a function. -/
inductive Op (A L N Dev : Type)
  /-- a channel without data, mask, hits, ... -/
  | new
  /-- copy construction of a channel -/
  | copy (i : Nat)
  /-- `set_data` / `set_mask` with an array -/
  | setArr (i : Nat) (x : Fld) (a : A)
  /-- `set_data` / `set_mask` with a function under a policy -/
  | setFn (i : Nat) (x : Fld) (p : Policy) (f : Nat)
  /-- `set_data` / `set_mask` with the deferred array another channel holds -/
  | setShared (i : Nat) (x : Fld) (j : Nat) (y : Fld)
  /-- `data()` / `mask()` -/
  | read (i : Nat) (x : Fld)
  | setNoise (i : Nat) (n : N)
  | noise (i : Nat)
  | hasHits (i : Nat)
  | hits (i : Nat)
  | setHits (i : Nat) (l : L)
  | setHitsFn (i : Nat) (f : Nat)
  | device (i : Nat)
  | setDevice (i : Nat) (d : Dev)
  | push (i : Nat)
  /-- `frequency_drift_plane(array, flags)` -/
  | newPlane (a : A) (fl : A × A × A)
  | copyPlane (p : Nat)
  /-- `set_integrated_drift_plane(plane)` -/
  | setPlane (i : Nat) (p : Nat)
  | setPlaneFn (i : Nat) (f : Nat)
  /-- `integrated_drift_plane()` of a channel: a new plane object -/
  | plane (i : Nat)
  /-- `integrated_drift_plane()` of a plane: its array -/
  | planeArr (p : Nat)
  /-- `integrated_rfi()` -/
  | planeRfi (p : Nat)
  | planeSetDevice (p : Nat) (d : Dev)
  | planePush (p : Nat)

/-- What a call returns. -/
inductive Val (A L N Dev : Type)
  | unit
  | arr (a : A)
  | flags (fl : A × A × A)
  | hits (l : L)
  | noise (n : N)
  | bool (b : Bool)
  | dev (d : Dev)
  deriving DecidableEq

variable {A L N Dev : Type}

/-- `std::function` call: what the `k`-th call gives, as an outcome. -/
def ofExcept {α : Type} : Except Err α → Outcome α
  | .ok a => .ok a
  | .error e => .throws e

/-- A count after one more call of `f`. -/
def bump (c : Nat → Nat) (f : Nat) : Nat → Nat := fun g => if g = f then c g + 1 else c g

/-- `ndarray_deferred::to(dev)`, bland/bland/ndarray_deferred.cpp lines 22-30: the object records
the device; if its cell holds an array, the moved array goes to a new cell. `none`: the cell is
null, and the code dereferences it. -/
def toDev (E : Env A L Dev) (cells : List (Cell A)) (o : DObj Dev) (d : Dev) :
    Option (List (Cell A) × DObj Dev) :=
  match o.cell with
  | none => none
  | some c => match cells[c]? with
    | none => none
    | some (.arr a) =>
      some (cells ++ [.arr (E.move d a)], { o with device := some d, cell := some cells.length })
    | some (.fn _) => some (cells, { o with device := some d })

/-- `ndarray_deferred::operator ndarray`, ndarray_deferred.cpp lines 38-58. Gives the cells, the
call counts and the array; when the function throws nothing is stored. -/
def readObj (E : Env A L Dev) (cells : List (Cell A)) (calls : Nat → Nat) (o : DObj Dev) :
    List (Cell A) × (Nat → Nat) × Outcome A :=
  match o.cell with
  | none => (cells, calls, .ub)
  | some c => match cells[c]? with
    | none => (cells, calls, .ub)
    | some cell =>
      let got : (Nat → Nat) × Outcome A := match cell with
        | .fn f => (bump calls f, ofExcept (E.arr f (calls f)))
        | .arr a => (calls, .ok a)
      match got.2 with
      | .ok v =>
        let v := match o.device with
          | some d => E.move d v
          | none => v
        (if o.policy = .memoize then cells.set c (.arr v) else cells, got.1, .ok v)
      | .throws e => (cells, got.1, .throws e)
      | .ub => (cells, got.1, .ub)

/-- The deferred array of a channel, and its replacement. -/
def Chan.get (c : Chan N Dev) : Fld → DObj Dev
  | .data => c.data
  | .mask => c.mask

/-- Assignment to `_data` or `_mask`. -/
def Chan.put (c : Chan N Dev) (x : Fld) (o : DObj Dev) : Chan N Dev :=
  match x with
  | .data => { c with data := o }
  | .mask => { c with mask := o }

/-- Moves the three arrays of flag counts: `integrated_flags::push_device`,
integrate_drifts_options.hpp lines 51-57. -/
def moveFlags (E : Env A L Dev) (d : Dev) (fl : A × A × A) : A × A × A :=
  (E.move d fl.1, E.move d fl.2.1, E.move d fl.2.2)

/-- `frequency_drift_plane::push_device`, frequency_drift_plane.cpp lines 41-45. -/
def pushPlane (E : Env A L Dev) (cells : List (Cell A)) (p : PObj A Dev) :
    Option (List (Cell A) × PObj A Dev) :=
  match toDev E cells p.drifts p.device with
  | none => none
  | some (cells, o) => some (cells, { p with drifts := o, flags := moveFlags E p.device p.flags })

/-- One call: the state after it and what it gave. A position that holds no object is not a
program; it counts as undefined behaviour. -/
def step (E : Env A L Dev) (s : State A L N Dev) :
    Op A L N Dev → State A L N Dev × Outcome (Val A L N Dev)
  -- coarse_channel.cpp lines 13-81: no data, no mask; coarse_channel.hpp line 219: the CPU
  | .new => ({ s with chans := s.chans ++
      [⟨⟨none, none, .memoize⟩, ⟨none, none, .memoize⟩, none, none, none, E.cpu⟩] }, .ok .unit)
  -- implicit copy constructor: the cells are shared
  | .copy i => match s.chans[i]? with
    | none => (s, .ub)
    | some c => ({ s with chans := s.chans ++ [c] }, .ok .unit)
  -- coarse_channel.cpp lines 209-211, 223-225, with ndarray_deferred.cpp lines 18-20
  | .setArr i x a => match s.chans[i]? with
    | none => (s, .ub)
    | some c => ({ s with
        chans := s.chans.set i (c.put x ⟨some s.cells.length, none, .memoize⟩),
        cells := s.cells ++ [.arr a] }, .ok .unit)
  -- coarse_channel.cpp lines 213-215, 227-229, with ndarray_deferred.cpp lines 9-16: an eager
  -- object calls the function when it is made
  | .setFn i x p f => match s.chans[i]? with
    | none => (s, .ub)
    | some c => match p with
      | .eager => match E.arr f (s.acalls f) with
        | .ok a => ({ s with
            chans := s.chans.set i (c.put x ⟨some s.cells.length, none, .eager⟩),
            cells := s.cells ++ [.arr a], acalls := bump s.acalls f }, .ok .unit)
        | .error e => ({ s with acalls := bump s.acalls f }, .throws e)
      | p => ({ s with
          chans := s.chans.set i (c.put x ⟨some s.cells.length, none, p⟩),
          cells := s.cells ++ [.fn f] }, .ok .unit)
  -- the same lines with an existing deferred array, which is copied
  | .setShared i x j y => match s.chans[i]?, s.chans[j]? with
    | some c, some c' => ({ s with chans := s.chans.set i (c.put x (c'.get y)) }, .ok .unit)
    | _, _ => (s, .ub)
  -- coarse_channel.cpp lines 203-207, 217-221: `_data.to(_device)` changes `_data` and returns a
  -- copy of it, which is converted to an array
  | .read i x => match s.chans[i]? with
    | none => (s, .ub)
    | some c => match toDev E s.cells (c.get x) c.device with
      | none => (s, .ub)
      | some (cells, o) =>
        let r := readObj E cells s.acalls o
        ({ s with chans := s.chans.set i (c.put x o), cells := r.1, acalls := r.2.1 },
          match r.2.2 with
          | .ok a => .ok (.arr a)
          | .throws e => .throws e
          | .ub => .ub)
  -- coarse_channel.cpp lines 240-242
  | .setNoise i n => match s.chans[i]? with
    | none => (s, .ub)
    | some c => ({ s with chans := s.chans.set i { c with noise := some n } }, .ok .unit)
  -- coarse_channel.cpp lines 231-238
  | .noise i => match s.chans[i]? with
    | none => (s, .ub)
    | some c => (s, match c.noise with
      | some n => .ok (.noise n)
      | none => .throws .logicError)
  -- coarse_channel.cpp lines 244-250
  | .hasHits i => match s.chans[i]? with
    | none => (s, .ub)
    | some c => (s, .ok (.bool c.hits.isSome))
  -- coarse_channel.cpp lines 252-261: a function is replaced by the list it returns
  | .hits i => match s.chans[i]? with
    | none => (s, .ub)
    | some c => match c.hits with
      | none => (s, .throws .logicError)
      | some h => match s.hcells[h]? with
        | none => (s, .ub)
        | some (.val l) => (s, .ok (.hits l))
        | some (.fn f) => match E.hits f (s.hcalls f) with
          | .ok l => ({ s with hcells := s.hcells.set h (.val l), hcalls := bump s.hcalls f },
              .ok (.hits l))
          | .error e => ({ s with hcalls := bump s.hcalls f }, .throws e)
  -- coarse_channel.cpp lines 263-265
  | .setHits i l => match s.chans[i]? with
    | none => (s, .ub)
    | some c => ({ s with chans := s.chans.set i { c with hits := some s.hcells.length },
                          hcells := s.hcells ++ [.val l] }, .ok .unit)
  -- coarse_channel.cpp lines 267-269
  | .setHitsFn i f => match s.chans[i]? with
    | none => (s, .ub)
    | some c => ({ s with chans := s.chans.set i { c with hits := some s.hcells.length },
                          hcells := s.hcells ++ [.fn f] }, .ok .unit)
  -- coarse_channel.cpp lines 271-273
  | .device i => match s.chans[i]? with
    | none => (s, .ub)
    | some c => (s, .ok (.dev c.device))
  -- coarse_channel.cpp lines 275-284: checked before it is stored
  | .setDevice i d => match s.chans[i]? with
    | none => (s, .ub)
    | some c => if E.usable d then
        ({ s with chans := s.chans.set i { c with device := d } }, .ok .unit)
      else (s, .throws .runtimeError)
  -- coarse_channel.cpp lines 292-300: mask, data, and the plane if one is stored
  | .push i => match s.chans[i]? with
    | none => (s, .ub)
    | some c => match toDev E s.cells c.mask c.device with
      | none => (s, .ub)
      | some (cells₁, m) => match toDev E cells₁ c.data c.device with
        | none => (s, .ub)
        | some (cells₂, x) =>
          let s' := { s with chans := s.chans.set i { c with mask := m, data := x },
                             cells := cells₂ }
          match c.plane with
          | none => (s', .ok .unit)
          | some h => match s.pcells[h]? with
            | some (.val p) => match pushPlane E cells₂ { p with device := c.device } with
              | none => (s', .ub)
              | some (cells₃, p') => ({ s' with cells := cells₃,
                                                pcells := s.pcells.set h (.val p') }, .ok .unit)
            | some (.fn _) => (s', .ok .unit)
            | none => (s', .ub)
  -- frequency_drift_plane.cpp lines 7-11; the device is the default device
  | .newPlane a fl => ({ s with
      planes := s.planes ++ [⟨⟨some s.cells.length, none, .memoize⟩, fl, E.dflt⟩],
      cells := s.cells ++ [.arr a] }, .ok .unit)
  -- implicit copy constructor
  | .copyPlane p => match s.planes[p]? with
    | none => (s, .ub)
    | some q => ({ s with planes := s.planes ++ [q] }, .ok .unit)
  -- coarse_channel.cpp lines 433-437
  | .setPlane i p => match s.chans[i]?, s.planes[p]? with
    | some c, some q => ({ s with chans := s.chans.set i { c with plane := some s.pcells.length },
                                  pcells := s.pcells ++ [.val q] }, .ok .unit)
    | _, _ => (s, .ub)
  -- coarse_channel.cpp lines 439-444
  | .setPlaneFn i f => match s.chans[i]? with
    | none => (s, .ub)
    | some c => ({ s with chans := s.chans.set i { c with plane := some s.pcells.length },
                          pcells := s.pcells ++ [.fn f] }, .ok .unit)
  -- coarse_channel.cpp lines 414-431: the result of a function is not kept; a stored plane gets
  -- the device of this channel, in the shared cell, and is copied
  | .plane i => match s.chans[i]? with
    | none => (s, .ub)
    | some c => match c.plane with
      | none => (s, .throws .runtimeError)
      | some h => match s.pcells[h]? with
        | none => (s, .ub)
        | some (.val p) => ({ s with planes := s.planes ++ [{ p with device := c.device }],
                                     pcells := s.pcells.set h (.val { p with device := c.device }) },
            .ok .unit)
        | some (.fn f) => match E.plane f (s.pcalls f) with
          | .ok (a, fl) => ({ s with
              planes := s.planes ++ [⟨⟨some s.cells.length, none, .memoize⟩, fl, c.device⟩],
              cells := s.cells ++ [.arr a], pcalls := bump s.pcalls f }, .ok .unit)
          | .error e => ({ s with pcalls := bump s.pcalls f }, .throws e)
  -- frequency_drift_plane.cpp lines 21-24
  | .planeArr p => match s.planes[p]? with
    | none => (s, .ub)
    | some q => match toDev E s.cells q.drifts q.device with
      | none => (s, .ub)
      | some (cells, o) =>
        let r := readObj E cells s.acalls o
        ({ s with planes := s.planes.set p { q with drifts := o }, cells := r.1, acalls := r.2.1 },
          match r.2.2 with
          | .ok a => .ok (.arr a)
          | .throws e => .throws e
          | .ub => .ub)
  -- frequency_drift_plane.cpp lines 26-30
  | .planeRfi p => match s.planes[p]? with
    | none => (s, .ub)
    | some q => ({ s with planes := s.planes.set p { q with flags := moveFlags E q.device q.flags } },
        .ok (.flags (moveFlags E q.device q.flags)))
  -- frequency_drift_plane.cpp lines 32-34
  | .planeSetDevice p d => match s.planes[p]? with
    | none => (s, .ub)
    | some q => ({ s with planes := s.planes.set p { q with device := d } }, .ok .unit)
  | .planePush p => match s.planes[p]? with
    | none => (s, .ub)
    | some q => match pushPlane E s.cells q with
      | none => (s, .ub)
      | some (cells, q') => ({ s with planes := s.planes.set p q', cells := cells }, .ok .unit)

/-- What each call of a program gives, in order; nothing is said about what follows undefined
behaviour. -/
def run (E : Env A L Dev) : State A L N Dev → List (Op A L N Dev) → List (Outcome (Val A L N Dev))
  | _, [] => []
  | s, op :: ops => match step E s op with
    | (_, .ub) => [.ub]
    | (s', r) => r :: run E s' ops

/-! ## Specification: channels and planes as plain values -/

/-- Where a value comes from: given, or computed by a function. -/
inductive Src (α : Type)
  | val (a : α)
  | fn (f : Nat)

/-- A plane as a value. -/
structure VPlane (A Dev : Type) where
  drifts : Src A
  flags : A × A × A
  device : Dev

/-- A channel as a value: every part is its own, nothing is shared. -/
structure VChan (A L N Dev : Type) where
  data : Option (Src A)
  mask : Option (Src A)
  noise : Option N
  plane : Option (Src (Src A × A × A × A))
  hits : Option (Src L)
  device : Dev

/-- All channels and planes as values. -/
structure VState (A L N Dev : Type) where
  chans : List (VChan A L N Dev)
  planes : List (VPlane A Dev)

/-- The value of a source, when functions always give the same. -/
def Src.eval {α : Type} (g : Nat → Except Err α) : Src α → Outcome α
  | .val a => .ok a
  | .fn f => ofExcept (g f)

def VChan.get (c : VChan A L N Dev) : Fld → Option (Src A)
  | .data => c.data
  | .mask => c.mask

def VChan.put (c : VChan A L N Dev) (x : Fld) (o : Option (Src A)) : VChan A L N Dev :=
  match x with
  | .data => { c with data := o }
  | .mask => { c with mask := o }

/-- The array of a source, on a device. -/
def readOn (E : Env A L Dev) (d : Dev) : Option (Src A) → Outcome (Val A L N Dev)
  | none => .ub
  | some o => match o.eval (E.arr · 0) with
    | .ok a => .ok (.arr (E.move d a))
    | .throws e => .throws e
    | .ub => .ub

/-- The specification of one call on values: setting changes the one channel or plane named, a
copy is a copy, reading changes nothing. -/
def vstep (E : Env A L Dev) (s : VState A L N Dev) :
    Op A L N Dev → VState A L N Dev × Outcome (Val A L N Dev)
  | .new => ({ s with chans := s.chans ++ [⟨none, none, none, none, none, E.cpu⟩] }, .ok .unit)
  | .copy i => match s.chans[i]? with
    | none => (s, .ub)
    | some c => ({ s with chans := s.chans ++ [c] }, .ok .unit)
  | .setArr i x a => match s.chans[i]? with
    | none => (s, .ub)
    | some c => ({ s with chans := s.chans.set i (c.put x (some (.val a))) }, .ok .unit)
  | .setFn i x p f => match s.chans[i]? with
    | none => (s, .ub)
    | some c => match p with
      | .eager => match E.arr f 0 with
        | .ok a => ({ s with chans := s.chans.set i (c.put x (some (.val a))) }, .ok .unit)
        | .error e => (s, .throws e)
      | _ => ({ s with chans := s.chans.set i (c.put x (some (.fn f))) }, .ok .unit)
  | .setShared i x j y => match s.chans[i]?, s.chans[j]? with
    | some c, some c' => ({ s with chans := s.chans.set i (c.put x (c'.get y)) }, .ok .unit)
    | _, _ => (s, .ub)
  | .read i x => match s.chans[i]? with
    | none => (s, .ub)
    | some c => (s, readOn E c.device (c.get x))
  | .setNoise i n => match s.chans[i]? with
    | none => (s, .ub)
    | some c => ({ s with chans := s.chans.set i { c with noise := some n } }, .ok .unit)
  | .noise i => match s.chans[i]? with
    | none => (s, .ub)
    | some c => (s, match c.noise with
      | some n => .ok (.noise n)
      | none => .throws .logicError)
  | .hasHits i => match s.chans[i]? with
    | none => (s, .ub)
    | some c => (s, .ok (.bool c.hits.isSome))
  | .hits i => match s.chans[i]? with
    | none => (s, .ub)
    | some c => (s, match c.hits with
      | none => .throws .logicError
      | some h => match h.eval (E.hits · 0) with
        | .ok l => .ok (.hits l)
        | .throws e => .throws e
        | .ub => .ub)
  | .setHits i l => match s.chans[i]? with
    | none => (s, .ub)
    | some c => ({ s with chans := s.chans.set i { c with hits := some (.val l) } }, .ok .unit)
  | .setHitsFn i f => match s.chans[i]? with
    | none => (s, .ub)
    | some c => ({ s with chans := s.chans.set i { c with hits := some (.fn f) } }, .ok .unit)
  | .device i => match s.chans[i]? with
    | none => (s, .ub)
    | some c => (s, .ok (.dev c.device))
  | .setDevice i d => match s.chans[i]? with
    | none => (s, .ub)
    | some c => if E.usable d then
        ({ s with chans := s.chans.set i { c with device := d } }, .ok .unit)
      else (s, .throws .runtimeError)
  | .push i => match s.chans[i]? with
    | none => (s, .ub)
    | some c => (s, if c.mask.isSome ∧ c.data.isSome then .ok .unit else .ub)
  | .newPlane a fl => ({ s with planes := s.planes ++ [⟨.val a, fl, E.dflt⟩] }, .ok .unit)
  | .copyPlane p => match s.planes[p]? with
    | none => (s, .ub)
    | some q => ({ s with planes := s.planes ++ [q] }, .ok .unit)
  | .setPlane i p => match s.chans[i]?, s.planes[p]? with
    | some c, some q =>
      ({ s with chans := s.chans.set i { c with plane := some (.val (q.drifts, q.flags)) } },
        .ok .unit)
    | _, _ => (s, .ub)
  | .setPlaneFn i f => match s.chans[i]? with
    | none => (s, .ub)
    | some c => ({ s with chans := s.chans.set i { c with plane := some (.fn f) } }, .ok .unit)
  | .plane i => match s.chans[i]? with
    | none => (s, .ub)
    | some c => match c.plane with
      | none => (s, .throws .runtimeError)
      | some (.val (x, fl)) => ({ s with planes := s.planes ++ [⟨x, fl, c.device⟩] }, .ok .unit)
      | some (.fn f) => match E.plane f 0 with
        | .ok (a, fl) => ({ s with planes := s.planes ++ [⟨.val a, fl, c.device⟩] }, .ok .unit)
        | .error e => (s, .throws e)
  | .planeArr p => match s.planes[p]? with
    | none => (s, .ub)
    | some q => (s, readOn E q.device (some q.drifts))
  | .planeRfi p => match s.planes[p]? with
    | none => (s, .ub)
    | some q => (s, .ok (.flags (moveFlags E q.device q.flags)))
  | .planeSetDevice p d => match s.planes[p]? with
    | none => (s, .ub)
    | some q => ({ s with planes := s.planes.set p { q with device := d } }, .ok .unit)
  | .planePush p => match s.planes[p]? with
    | none => (s, .ub)
    | some _ => (s, .ok .unit)

/-- What each call of a program gives when channels and planes are values. -/
def vrun (E : Env A L Dev) : VState A L N Dev → List (Op A L N Dev) → List (Outcome (Val A L N Dev))
  | _, [] => []
  | s, op :: ops => match vstep E s op with
    | (_, .ub) => [.ub]
    | (s', r) => r :: vrun E s' ops

end Bliss.Channel
