import Verif.Event.Frame
import Verif.Event.IsolatedFloat
import Verif.Drift.Rates

/-!
# Origin and brightness in float arithmetic (C138, C139)

Which hits are grouped does not depend on their brightness in `float` and `double` arithmetic either,
as long as the SNR is finite. The origin of the frequency does matter there: a distance next to the
threshold can be rounded across it.
-/

namespace Bliss.Event

open Bliss.Hit (Hit FOrd)
open Bliss.File (Event)
open Bliss.Float (rne)
open Bliss.Drift (Fl)

/-- **C139 in `float` and `double` arithmetic.** For finite values and a steady cadence, which hits
are grouped into events depends only on where they are and how they drift. -/
theorem C139_only_place_float (g : Hit ℚ ℚ → Hit ℚ ℚ) (hg : KeepsPlace g) (on : List (ScanHits ℚ ℚ))
    (offs : List (List (ScanHits ℚ ℚ))) (hst : Steady ieee ratOrd on offs) :
    ∃ es es', eventSearch ieee exMap (on :: offs) = .ok es ∧
      eventSearch ieee exMap ((on :: offs).map (List.map fun sc =>
        { sc with hits := sc.hits.map g })) = .ok es' ∧
      List.Forall₂ (fun e e' => e'.hits = e.hits.map g ∧
        e'.startingFrequency = e.startingFrequency ∧ e'.averageDrift = e.averageDrift ∧
        e'.startSeconds = e.startSeconds ∧ e'.endSeconds = e.endSeconds) es es' :=
  C139_only_place_partial ieee ratOrd_lawful ratOrd_lawful ratOrd_total ratOrd_total ieee_congr exMap
    (listMap_sound _) ieee_lt.big
    (fun x y => by show rne 24 (0 * x) = rne 24 (0 * y); rw [zero_mul, zero_mul]) g hg on offs hst

/-- Fainter hits of the example. -/
example : ∃ es es', eventSearch ieee exMap exCadence = .ok es ∧ es.length = 1 ∧
    eventSearch ieee exMap (exCadence.map (List.map fun sc => { sc with
        hits := sc.hits.map fun h => { h with snr := h.snr / 1000 } })) = .ok es' ∧
    es'.length = 1 := by
  obtain ⟨es, es', h3, h4, h5⟩ := C139_only_place_float
    (fun h => { h with snr := h.snr / 1000 }) (fun h => ⟨rfl, rfl, rfl, rfl⟩) exCadence.head!
    exCadence.tail (.inr ⟨by decide +kernel, by decide +kernel⟩)
  have h6 : eventSearch ieee exMap exCadence = .ok es := h3
  have h7 : eventSearch ieee exMap exCadence = .ok [mkEvent ieee
      ⟨1, 300, [exHit 8400 86400 300 0 20]⟩ (exHit 8400 86400 300 0 20)
      [exHit 8400 86400 300 0 20, exHit (8400 + 1 / 10000) 172800 300 0 30]] := by decide +kernel
  rw [h6] at h7
  cases h7
  exact ⟨_, es', h3, rfl, h4, h5.length_eq.symm⟩

/-! ## C138 fails: rounding at the threshold -/

/-- Two hits 4999.9999 Hz apart near `f` MHz, in scans a day apart. -/
def edgeCadence (f : ℚ) : List (List (ScanHits ℚ ℚ)) :=
  [[⟨1, 300, [exHit f 86400 300 0 20]⟩,
    ⟨2, 300, [exHit (f + 2748779026 / 2 ^ 39) 172800 300 0 30]⟩]]

/-- **C138 fails in `double` arithmetic: the band decides.** The same two hits form an event at 398
MHz and none when both are moved up by 8192 MHz, although all four frequencies are `double`s, so that
the move itself is exact: the distance, just below 50, is rounded to 50. -/
theorem C138_band_matters :
    (∃ e, eventSearch ieee exMap (edgeCadence 398) = .ok [e]) ∧
    (edgeCadence 398).map (List.map (moveScan 0 8192)) = edgeCadence (398 + 8192) ∧
    eventSearch ieee exMap (edgeCadence (398 + 8192)) = .ok [] ∧
    ∀ x ∈ ([398, 398 + 2748779026 / 2 ^ 39, 398 + 8192, 398 + 8192 + 2748779026 / 2 ^ 39] : List ℚ),
      rne 53 x = x := by
  refine ⟨⟨mkEvent ieee ⟨1, 300, [exHit 398 86400 300 0 20]⟩ (exHit 398 86400 300 0 20)
    [exHit 398 86400 300 0 20, exHit (398 + 2748779026 / 2 ^ 39) 172800 300 0 30],
    by decide +kernel⟩, ?_, by decide +kernel, by decide +kernel⟩
  simp only [edgeCadence, List.map_cons, List.map_nil, moveScan, moveHit, exHit]
  norm_num

/-! ## C139 fails: infinite SNR -/

/-- The negative of a value. -/
def negX : Fl → Fl
  | .fin q => .fin (-q)
  | .inf b => .inf !b
  | .nan => .nan

/-- IEEE addition, exact on finite values. -/
def addX : Fl → Fl → Fl
  | .fin a, .fin b => .fin (a + b)
  | .fin _, .inf b => .inf b
  | .inf a, .fin _ => .inf a
  | .inf a, .inf b => if a = b then .inf a else .nan
  | _, _ => .nan

/-- IEEE multiplication, exact on finite values. -/
def mulX : Fl → Fl → Fl
  | .fin a, .fin b => .fin (a * b)
  | .fin a, .inf b => if a = 0 then .nan else .inf (b == decide (0 < a))
  | .inf a, .fin b => if b = 0 then .nan else .inf (a == decide (0 < b))
  | .inf a, .inf b => .inf (a == b)
  | _, _ => .nan

/-- IEEE division, exact on finite values; zeros are taken to be positive. -/
def divX : Fl → Fl → Fl
  | .fin a, .fin b => if b = 0 then (if a = 0 then .nan else .inf (decide (0 < a))) else .fin (a / b)
  | .fin _, .inf _ => .fin 0
  | .inf a, .fin b => .inf (a == decide (0 ≤ b))
  | _, _ => .nan

/-- IEEE comparison. -/
def ltX : Fl → Fl → Bool
  | .fin a, .fin b => decide (a < b)
  | .fin _, .inf b => b
  | .inf a, .fin _ => !a
  | .inf a, .inf b => !a && b
  | _, _ => false

/-- The absolute value. -/
def absX : Fl → Fl
  | .fin q => .fin |q|
  | .inf _ => .inf true
  | .nan => .nan

/-- The arithmetic of `event_search.cpp` with infinities and NaN, exact on finite values. -/
def special : EvOps Fl Fl where
  add := addX
  sub := fun a b => addX a (negX b)
  mul := mulX
  div := divX
  abs := absX
  min := fun a b => if ltX b a then b else a
  max := fun a b => if ltX a b then b else a
  toD := id
  toF := id
  addF := addX
  subF := fun a b => addX a (negX b)
  mulF := mulX
  divF := divX
  absF := absX
  ltF := ltX
  natF := fun n => .fin n
  natD := fun n => .fin n
  zeroF := .fin 0
  zeroD := .fin 0
  fltMax := .fin ((2 ^ 24 - 1) * 2 ^ 104)
  fifty := .fin 50
  wFreq := .fin (1 / 100)
  wDrift := .fin 10
  wSnr := .fin 0
  eps := .fin (1 / 100000000)
  secPerDay := .fin 86400
  million := .fin 1000000
  two := .fin 2

/-- On finite values the operations are those of the rational numbers, and comparisons with infinities are
those of the extended real line. -/
theorem C139_special_exact (a b : ℚ) :
    special.add (.fin a) (.fin b) = .fin (a + b) ∧ special.sub (.fin a) (.fin b) = .fin (a - b) ∧
    special.mul (.fin a) (.fin b) = .fin (a * b) ∧ (b ≠ 0 → special.div (.fin a) (.fin b) = .fin (a / b)) ∧
    special.min (.fin a) (.fin b) = .fin (min a b) ∧ special.max (.fin a) (.fin b) = .fin (max a b) ∧
    special.abs (.fin a) = .fin |a| ∧ special.addF (.fin a) (.fin b) = .fin (a + b) ∧
    special.subF (.fin a) (.fin b) = .fin (a - b) ∧ special.mulF (.fin a) (.fin b) = .fin (a * b) ∧
    (b ≠ 0 → special.divF (.fin a) (.fin b) = .fin (a / b)) ∧ special.absF (.fin a) = .fin |a| ∧
    (special.ltF (.fin a) (.fin b) = true ↔ a < b) ∧ special.ltF (.fin a) (.inf true) = true ∧
    special.ltF (.inf false) (.fin a) = true ∧
    special.min (.inf true) (.fin a) = .fin a ∧ special.max (.inf true) (.fin a) = .inf true ∧
    special.min (.inf false) (.fin a) = .inf false ∧ special.max (.inf false) (.fin a) = .fin a := by
  refine ⟨rfl, ?_, rfl, fun h => if_neg h, ?_, ?_, rfl, rfl, ?_, rfl, fun h => if_neg h, rfl, ?_, rfl, rfl, rfl, rfl,
    rfl, rfl⟩
  · show Fl.fin (a + -b) = _
    rw [sub_eq_add_neg]
  · show (if decide (b < a) = true then Fl.fin b else Fl.fin a) = _
    by_cases h : b < a
    · rw [if_pos (by simpa using h), min_eq_right h.le]
    · rw [if_neg (by simpa using h), min_eq_left (not_lt.1 h)]
  · show (if decide (a < b) = true then Fl.fin b else Fl.fin a) = _
    by_cases h : a < b
    · rw [if_pos (by simpa using h), max_eq_right h.le]
    · rw [if_neg (by simpa using h), max_eq_left (not_lt.1 h)]
  · show Fl.fin (a + -b) = _
    rw [sub_eq_add_neg]
  · exact decide_eq_true_iff

/-- Comparison of `float` and `double` values. -/
def ordX : FOrd Fl where
  eq := fun a b => match a, b with
    | .fin a, .fin b => decide (a = b)
    | .inf a, .inf b => a == b
    | _, _ => false
  lt := ltX

/-- A hit of 8400 MHz and no drift. -/
def brightHit (start : ℚ) (snr : Fl) : Hit Fl Fl :=
  { startFreqIndex := 0, startFreqMHz := .fin 8400, startTime := .fin start, duration := .fin 300
    rateIndex := 0, driftRate := .fin 0, power := .fin 1, timeSpan := 16, snr := snr
    bandwidth := .fin 3, binwidth := 1, rfi := [], coarseChannel := 0 }

/-- The same signal in two scans. -/
def brightCadence (snr : Fl) : List (List (ScanHits Fl Fl)) :=
  [[⟨.fin 1, .fin 300, [brightHit 86400 snr]⟩, ⟨.fin 2, .fin 300, [brightHit 172800 snr]⟩]]

/-- **C139 fails for infinite SNR** (the SNR over a noise estimate of 0). A signal that is in the same
place in two scans is an event when its SNR is 20 and none when it is infinite: the difference of the
SNRs is NaN, zero times NaN is NaN, and no comparison with NaN is true. -/
theorem C139_infinite_snr :
    (∃ e, eventSearch special (listMap (comp ordX ordX)) (brightCadence (.fin 20)) = .ok [e]) ∧
    eventSearch special (listMap (comp ordX ordX)) (brightCadence (.inf true)) = .ok [] := by
  refine ⟨⟨mkEvent special ⟨.fin 1, .fin 300, [brightHit 86400 (.fin 20)]⟩ (brightHit 86400 (.fin 20))
    [brightHit 86400 (.fin 20), brightHit 172800 (.fin 20)], by decide +kernel⟩, by decide +kernel⟩

end Bliss.Event
