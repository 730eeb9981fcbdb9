import Verif.Hit.Model
import Verif.File.Model

/-!
# Model of event search

`bliss/drift_search/event_search.cpp`. `F` is `float`, `D` is `double`; arithmetic on them is the
uninterpreted record `EvOps`, so theorems that do not say otherwise hold for IEEE arithmetic.

Scans are given by their time extent and by the list that `scan::hits()` returned; how that list is
computed is modelled in `Verif.Scan`.
-/

namespace Bliss.Event

open Bliss.Hit (Hit FOrd)
open Bliss.File (Event)

/-- The arithmetic of `event_search.cpp`. -/
structure EvOps (F D : Type) where
  add : D → D → D
  sub : D → D → D
  mul : D → D → D
  div : D → D → D
  abs : D → D
  min : D → D → D
  max : D → D → D
  toD : F → D
  toF : D → F
  addF : F → F → F
  subF : F → F → F
  mulF : F → F → F
  divF : F → F → F
  absF : F → F
  ltF : F → F → Bool
  natF : Nat → F
  natD : Nat → D
  zeroF : F
  zeroD : D
  /-- `std::numeric_limits<float>::max()` -/
  fltMax : F
  /-- the literal `50`, converted to `float` by the comparison -/
  fifty : F
  /-- `freq_localization_weight`, `drift_error_weight`, `snr_difference_weight`, `eps`,
  `seconds_per_day` (lines 11-16) -/
  wFreq : F
  wDrift : F
  wSnr : F
  eps : F
  secPerDay : F
  /-- `1e6` -/
  million : D
  two : D

variable {F D : Type}

/-- `distance_func` (lines 18-41). `power_difference` is computed but not used. Line 27 uses
`b.duration_sec` for both hits. -/
def distanceFunc (o : EvOps F D) (a b : Hit F D) : F :=
  let snrDifference := o.absF (o.subF a.snr b.snr)
  let driftDifference := o.div (o.abs (o.sub a.driftRate b.driftRate))
    (o.add (o.add (o.toD o.eps) (o.mul a.driftRate a.driftRate)) (o.mul b.driftRate b.driftRate))
  let driftError := o.mul driftDifference driftDifference
  let first := o.min a.startTime b.startTime
  let last := o.max (o.add a.startTime b.duration) (o.add b.startTime b.duration)
  let rendezvous := o.div (o.add last first) o.two
  let aTime := o.sub rendezvous a.startTime
  let bTime := o.sub rendezvous b.startTime
  let aFreq := o.add (o.mul a.startFreqMHz o.million) (o.mul a.driftRate aTime)
  let bFreq := o.add (o.mul b.startFreqMHz o.million) (o.mul b.driftRate bTime)
  let freqDifference := o.abs (o.sub aFreq bFreq)
  o.toF (o.add (o.add (o.mul (o.toD o.wFreq) freqDifference) (o.mul (o.toD o.wDrift) driftError))
    (o.toD (o.mulF o.wSnr snrDifference)))

/-! ## The distance cache -/

/-- `std::pair<hit, hit>`. -/
abbrev Pair (F D : Type) := Hit F D × Hit F D

/-- `operator<` of `std::pair` (lexicographic, from `operator<` of `hit`). -/
def pairLt (oF : FOrd F) (oD : FOrd D) (p q : Pair F D) : Bool :=
  Hit.blt oF oD p.1 q.1 || (!Hit.blt oF oD q.1 p.1 && Hit.blt oF oD p.2 q.2)

/-- `hit_pair_comparator` (lines 49-59). -/
def comp (oF : FOrd F) (oD : FOrd D) (p q : Pair F D) : Bool :=
  if Hit.beq oF oD p.1 q.1 && Hit.beq oF oD p.2 q.2 then false
  else if Hit.beq oF oD p.1 q.2 && Hit.beq oF oD p.2 q.1 then false
  else pairLt oF oD p q

/-- A `std::map<K, V, Compare>` seen through its members: `find` (with `at`) and `operator[]=`.
The tree behind it is left open: its shape depends on the insertion history. -/
structure OrdMap (K V : Type) where
  M : Type
  empty : M
  find : M → K → Option V
  insert : M → K → V → M

/-- `hit_distance::operator()` (lines 63-72). -/
def cachedDistance (o : EvOps F D) (m : OrdMap (Pair F D) F) (c : m.M) (a b : Hit F D) :
    F × m.M :=
  match m.find c (a, b) with
  | some d => (d, c)
  | none =>
    let d := distanceFunc o a b
    (d, m.insert c (a, b) d)

/-! ## The search -/

/-- A scan with its hits: `tstart()`, `tduration_secs()` and `hits()`. -/
structure ScanHits (F D : Type) where
  tstart : D
  duration : D
  hits : List (Hit F D)

section
variable {C : Type}

/-- Lines 138-145: the lowest distance between the candidate event and one hit. `dist` is the
stateful `distance` object. -/
def lowest (o : EvOps F D) (dist : C → Hit F D → Hit F D → F × C) (h : Hit F D) :
    List (Hit F D) → F → C → F × C
  | [], low, c => (low, c)
  | e :: es, low, c =>
    let r := dist c e h
    lowest o dist h es (if o.ltF r.1 low then r.1 else low) r.2

/-- Lines 135-150: the best distance and the position of the best hit, if any. -/
def pickBest (o : EvOps F D) (dist : C → Hit F D → Hit F D → F × C) (ev : List (Hit F D)) :
    List (Hit F D) → Nat → F → Option Nat → C → F × Option Nat × C
  | [], _, best, at', c => (best, at', c)
  | h :: hs, i, best, at', c =>
    let r := lowest o dist h ev o.fltMax c
    if o.ltF r.1 best then pickBest o dist ev hs (i + 1) r.1 (some i) r.2
    else pickBest o dist ev hs (i + 1) best at' r.2

/-- Lines 131-157 for one later scan: the event, the hits left in the scan, the cache. Using the
iterator without having assigned it is undefined. -/
def matchScan (o : EvOps F D) (dist : C → Hit F D → Hit F D → F × C) (ev hits : List (Hit F D))
    (c : C) : Outcome (List (Hit F D) × List (Hit F D) × C) :=
  let r := pickBest o dist ev hits 0 o.fltMax none c
  if o.ltF r.1 o.fifty then
    match r.2.1 with
    | none => .ub
    | some i =>
      match hits[i]? with
      | none => .ub
      | some h => .ok (ev ++ [h], hits.eraseIdx i, r.2.2)
  else .ok (ev, hits, r.2.2)

/-- Lines 116-158: all later scans in order; `rest` are their remaining hits. The rendezvous
quantities of lines 121-129 are not used. -/
def extend (o : EvOps F D) (dist : C → Hit F D → Hit F D → F × C) :
    List (Hit F D) → List (List (Hit F D)) → C →
    Outcome (List (Hit F D) × List (List (Hit F D)) × C)
  | ev, [], c => .ok (ev, [], c)
  | ev, hits :: rest, c => do
    let (ev', hits', c') ← matchScan o dist ev hits c
    let (ev'', rest', c'') ← extend o dist ev' rest c'
    pure (ev'', hits' :: rest', c'')

/-- Lines 163-166: the sum of the distances between an OFF hit and the hits of the event. -/
def sumDist (o : EvOps F D) (dist : C → Hit F D → Hit F D → F × C) (off : Hit F D) :
    List (Hit F D) → F → C → F × C
  | [], s, c => (s, c)
  | e :: es, s, c =>
    let r := dist c off e
    sumDist o dist off es (o.addF s r.1) r.2

/-- Lines 160-172: in how many OFF hits the event is found. -/
def timesInOff (o : EvOps F D) (dist : C → Hit F D → Hit F D → F × C) (ev : List (Hit F D)) :
    List (Hit F D) → Nat → C → Nat × C
  | [], n, c => (n, c)
  | off :: offs, n, c =>
    let r := sumDist o dist off ev o.zeroF c
    timesInOff o dist ev offs
      (if o.ltF (o.divF r.1 (o.natF ev.length)) o.fifty then n + 1 else n) r.2

/-- Lines 103-114 and 176-190: the event that is reported for the hits `ev`, the first of which was
found in `sc`. Averages are accumulated in the type of the member (`float` for power, bandwidth
and SNR, `double` for the drift) and divided by the number of hits. -/
def mkEvent (o : EvOps F D) (sc : ScanHits F D) (start : Hit F D) (ev : List (Hit F D)) : Event F D :=
  let drift := ev.foldl (fun acc h => o.add acc h.driftRate) o.zeroD
  let power := ev.foldl (fun acc h => o.toF (o.add (o.toD acc) h.power)) o.zeroF
  let snr := ev.foldl (fun acc h => o.addF acc h.snr) o.zeroF
  let bandwidth := ev.foldl (fun acc h => o.addF acc h.bandwidth) o.zeroF
  { hits := ev
    startingFrequency := o.mul start.startFreqMHz o.million
    averagePower := o.divF power (o.natF ev.length)
    averageBandwidth := o.divF bandwidth (o.natF ev.length)
    averageSnr := o.divF snr (o.natF ev.length)
    averageDrift := o.div drift (o.natD ev.length)
    startSeconds := o.mul sc.tstart (o.toD o.secPerDay)
    endSeconds := o.add (o.mul sc.tstart (o.toD o.secPerDay)) sc.duration }

/-- Lines 105-200: every starting hit of one scan. `rest` are the remaining hits of the later
scans; the list being iterated is never modified. -/
def fromScan (o : EvOps F D) (dist : C → Hit F D → Hit F D → F × C) (offs : List (Hit F D))
    (sc : ScanHits F D) :
    List (Hit F D) → List (List (Hit F D)) → C →
    Outcome (List (Event F D) × List (List (Hit F D)) × C)
  | [], rest, c => .ok ([], rest, c)
  | h :: hs, rest, c => do
    let (ev, rest', c1) ← extend o dist [h] rest c
    let (n, c2) := timesInOff o dist ev offs 0 c1
    let (es, rest'', c3) ← fromScan o dist offs sc hs rest' c2
    pure (if ev.length > 1 ∧ n = 0 then mkEvent o sc h ev :: es else es, rest'', c3)

/-- Lines 102-203: every scan of the on target. -/
def fromScans (o : EvOps F D) (dist : C → Hit F D → Hit F D → F × C) (offs : List (Hit F D)) :
    List (ScanHits F D) → List (List (Hit F D)) → C → Outcome (List (Event F D))
  | sc :: scs, hits :: rest, c => do
    let (es, rest', c') ← fromScan o dist offs sc hits rest c
    let es' ← fromScans o dist offs scs rest' c'
    pure (es ++ es')
  | _, _, _ => .ok []

/-- `event_search` (lines 76-205) with the distance object left open. A cadence is the list of its
targets, a target the list of its scans. Line 85 indexes the first target without a check. -/
def searchWith (o : EvOps F D) (dist : C → Hit F D → Hit F D → F × C) (c0 : C)
    (cadence : List (List (ScanHits F D))) : Outcome (List (Event F D)) :=
  match cadence with
  | [] => .ub
  | on :: offTargets =>
    fromScans o dist (offTargets.flatten.flatMap ScanHits.hits) on (on.map ScanHits.hits) c0

end

/-- `event_search`, with `hit_distance` as the distance object (line 77). -/
def eventSearch (o : EvOps F D) (m : OrdMap (Pair F D) F) (cadence : List (List (ScanHits F D))) :
    Outcome (List (Event F D)) :=
  searchWith o (cachedDistance o m) m.empty cadence

end Bliss.Event
