import Verif.Event.Props
import Verif.Float.Sum
import Verif.Float.Rounding
import Mathlib.Tactic.Positivity
import Mathlib.Tactic.FieldSimp

/-!
# The averages of an event in float and double arithmetic (C25)
-/

namespace Bliss.Event

open Bliss.Hit (Hit FOrd)
open Bliss.File (Event)
open Bliss.Float (rne RelErr plainSum absSum)

/-- The arithmetic of `event_search.cpp` with `float` and `double` as IEEE formats: every operation
rounds to 24 or 53 bits, ties to even. Values are rationals, so there is no overflow, underflow or
NaN. -/
def ieee : EvOps ℚ ℚ where
  add := fun a b => rne 53 (a + b)
  sub := fun a b => rne 53 (a - b)
  mul := fun a b => rne 53 (a * b)
  div := fun a b => rne 53 (a / b)
  abs := fun x => if x < 0 then -x else x
  min := fun a b => if b < a then b else a
  max := fun a b => if a < b then b else a
  toD := id
  toF := rne 24
  addF := fun a b => rne 24 (a + b)
  subF := fun a b => rne 24 (a - b)
  mulF := fun a b => rne 24 (a * b)
  divF := fun a b => rne 24 (a / b)
  absF := fun x => if x < 0 then -x else x
  ltF := fun a b => decide (a < b)
  natF := fun n => rne 24 n
  natD := fun n => rne 53 n
  zeroF := 0
  zeroD := 0
  fltMax := (2 ^ 24 - 1) * 2 ^ 104
  fifty := 50
  wFreq := rne 24 (1 / 100)
  wDrift := 10
  wSnr := 0
  eps := rne 24 (1 / 100000000)
  secPerDay := 86400
  million := 1000000
  two := 2

theorem ieee_lt : LtLaws ieee where
  irrefl := by intro a; simp [ieee]
  trans := by
    intro a b d
    simp only [ieee, decide_eq_true_eq]
    exact lt_trans
  big := by decide +kernel

/-- The arithmetic mean. -/
def mean (xs : List ℚ) : ℚ := xs.sum / xs.length

theorem rne_rel (p : Nat) : RelErr (rne p) (2 ^ (-(p : ℤ))) := fun z => by
  rw [mul_comm]; exact Float.rne_err z

/-- A rounded sum divided by the count and rounded is close to the mean. -/
theorem mean_err {rnd div : ℚ → ℚ} {u : ℚ} (hr : RelErr rnd u) (hd : RelErr div u) (hu : 0 ≤ u)
    (xs : List ℚ) (h0 : xs ≠ []) (hn : xs.length * u ≤ 1 / 2) :
    |div (plainSum rnd xs / xs.length) - mean xs| ≤
      (2 * xs.length + 2) * u * mean (xs.map fun x => |x|) := by
  have hl : (0 : ℚ) < xs.length := by
    have := List.length_pos_iff.2 h0
    exact_mod_cast this
  have h1 := Float.plainSum_err hr hu xs hn
  have h2 := hd (plainSum rnd xs / xs.length)
  have h3 := Float.abs_sum_le xs
  have h4 := Float.absSum_nonneg xs
  have e1 : mean (xs.map fun x => |x|) = absSum xs / xs.length := by
    simp only [mean, absSum, List.length_map]
  rw [e1]
  unfold mean
  generalize plainSum rnd xs = s at *
  generalize xs.sum = T at *
  generalize absSum xs = A at *
  generalize (xs.length : ℚ) = n at *
  have h5 : |s / n - T / n| ≤ 2 * u * A := by
    rw [← sub_div, abs_div, abs_of_pos hl, div_le_iff₀ hl]
    calc _ ≤ _ := h1
      _ = _ := by ring
  have h6 : |T / n| ≤ A / n := by
    rw [abs_div, abs_of_pos hl]
    exact div_le_div_of_nonneg_right h3 hl.le
  have h7 : |s / n| ≤ A / n + 2 * u * A := by
    have : s / n = (s / n - T / n) + T / n := by ring
    rw [this]
    exact (abs_add_le _ _).trans (by linarith)
  have h8 : |div (s / n) - T / n| ≤ |div (s / n) - s / n| + |s / n - T / n| := abs_sub_le _ _ _
  have h9 : u * |s / n| ≤ u * (A / n + 2 * u * A) := mul_le_mul_of_nonneg_left h7 hu
  have hAn : 0 ≤ A / n := div_nonneg h4 hl.le
  have e2 : A = n * (A / n) := by field_simp
  generalize A / n = a at *
  subst e2
  have h10 : u * (2 * u * (n * a)) ≤ u * a := by
    have : (2 * (n * u)) * (u * a) ≤ 1 * (u * a) :=
      mul_le_mul_of_nonneg_right (by linarith) (mul_nonneg hu hAn)
    linarith
  calc |div (s / n) - T / n| ≤ u * (a + 2 * u * (n * a)) + 2 * u * (n * a) := by linarith
    _ ≤ (2 * n + 2) * u * a := by linarith

private theorem foldl_plain (rnd : ℚ → ℚ) (f : Hit ℚ ℚ → ℚ) (ev : List (Hit ℚ ℚ)) :
    ev.foldl (fun acc h => rnd (acc + f h)) 0 = plainSum rnd (ev.map f) := by
  simp only [plainSum, List.foldl_map]

theorem natExact (p : Nat) (hp : 0 < p) (n : Nat) (h : n ≤ 2 ^ p) : rne p (n : ℚ) = n := by
  have := (Float.nearestEven p hp).int (n : ℤ) (by
    rw [abs_of_nonneg (by positivity)]; exact_mod_cast h)
  exact_mod_cast this

/-- Rounding to `double` and then to `float`. -/
private theorem twice : RelErr (fun z => rne 24 (rne 53 z)) (2 ^ (-23 : ℤ)) := fun z => by
  have h1 := rne_rel 53 z
  have h2 := rne_rel 24 (rne 53 z)
  have h3 : |rne 53 z| ≤ |rne 53 z - z| + |z| := by
    have := abs_add_le (rne 53 z - z) z
    simpa using this
  have h4 := abs_sub_le (rne 24 (rne 53 z)) (rne 53 z) z
  have e1 : (2 : ℚ) ^ (-((53 : ℕ) : ℤ)) = 1 / 9007199254740992 := by norm_num
  have e2 : (2 : ℚ) ^ (-((24 : ℕ) : ℤ)) = 1 / 16777216 := by norm_num
  have e3 : (2 : ℚ) ^ (-23 : ℤ) = 1 / 8388608 := by norm_num
  rw [e1] at h1
  rw [e2] at h2
  rw [e3]
  have := abs_nonneg z
  change |rne 24 (rne 53 z) - z| ≤ _
  nlinarith

/-- **C25 (part), in float and double arithmetic.** For every cadence of at most `2^22` scans: the
averages of an event of `n` hits are the arithmetic means over its hits up to `2n + 2` rounding
errors relative to the mean of the absolute values. The power of a hit is a `double` that is added
to a `float`, which rounds twice. -/
theorem C25_means_rounded_partial (m : OrdMap (Pair ℚ ℚ) ℚ) (on : List (ScanHits ℚ ℚ))
    (offs : List (List (ScanHits ℚ ℚ))) (es : List (Event ℚ ℚ)) (hon : on.length ≤ 2 ^ 22)
    (h : eventSearch ieee m (on :: offs) = .ok es) :
    ∀ e ∈ es,
      |e.averagePower - mean (e.hits.map Hit.power)| ≤
        (2 * e.hits.length + 2) * 2 ^ (-23 : ℤ) * mean (e.hits.map fun x => |x.power|) ∧
      |e.averageSnr - mean (e.hits.map Hit.snr)| ≤
        (2 * e.hits.length + 2) * 2 ^ (-24 : ℤ) * mean (e.hits.map fun x => |x.snr|) ∧
      |e.averageBandwidth - mean (e.hits.map Hit.bandwidth)| ≤
        (2 * e.hits.length + 2) * 2 ^ (-24 : ℤ) * mean (e.hits.map fun x => |x.bandwidth|) ∧
      |e.averageDrift - mean (e.hits.map Hit.driftRate)| ≤
        (2 * e.hits.length + 2) * 2 ^ (-53 : ℤ) * mean (e.hits.map fun x => |x.driftRate|) := by
  intro e he
  obtain ⟨h2, scans, hlen, hpw, hsc⟩ :=
    C22_events_use_distinct_scans ieee m ieee_lt.big on offs es h e he
  -- no more hits than scans
  have hle : e.hits.length ≤ on.length := by
    rw [← hlen]
    have hnd : scans.Nodup := hpw.imp (fun h => Nat.ne_of_lt h)
    have hsub : scans ⊆ List.range on.length := by
      intro k hk
      obtain ⟨i, hi, hik⟩ := List.mem_iff_getElem.1 hk
      have hi' : i < e.hits.length := hlen ▸ hi
      obtain ⟨sc, hs, -⟩ := hsc i k e.hits[i] (List.getElem?_eq_getElem hi')
        (by rw [List.getElem?_eq_getElem hi, hik])
      rw [List.mem_range]
      exact (List.getElem?_eq_some_iff.1 hs).1
    have := (hnd.subperm hsub).length_le
    simpa using this
  have hn22 : e.hits.length ≤ 2 ^ 22 := hle.trans hon
  obtain ⟨sc, hsc', hd, tl, g1, g2, g3⟩ := eventSearch_mk ieee m ieee_lt on offs es h e he
  have hp : e.averagePower = (mkEvent ieee sc hd e.hits).averagePower := congrArg _ g3
  have hs : e.averageSnr = (mkEvent ieee sc hd e.hits).averageSnr := congrArg _ g3
  have hb : e.averageBandwidth = (mkEvent ieee sc hd e.hits).averageBandwidth := congrArg _ g3
  have hdr : e.averageDrift = (mkEvent ieee sc hd e.hits).averageDrift := congrArg _ g3
  have hne : e.hits ≠ [] := by rw [g1]; simp
  have hq : (e.hits.length : ℚ) ≤ 4194304 := by exact_mod_cast hn22
  have n24 := natExact 24 (by decide) e.hits.length (hn22.trans (by norm_num))
  have n53 := natExact 53 (by decide) e.hits.length (hn22.trans (by norm_num))
  have r24 : RelErr (rne 24) (2 ^ (-24 : ℤ)) := rne_rel 24
  have r53 : RelErr (rne 53) (2 ^ (-53 : ℤ)) := rne_rel 53
  have r24' : RelErr (rne 24) (2 ^ (-23 : ℤ)) := fun z => (r24 z).trans
    (mul_le_mul_of_nonneg_right (by norm_num) (abs_nonneg z))
  rw [hp, hs, hb, hdr]
  simp only [mkEvent, ieee, id_eq]
  rw [n24, n53, foldl_plain (fun z => rne 24 (rne 53 z)) Hit.power, foldl_plain (rne 24) Hit.snr,
    foldl_plain (rne 24) Hit.bandwidth, foldl_plain (rne 53) Hit.driftRate]
  have go : ∀ {rnd div : ℚ → ℚ} {u : ℚ} (f : Hit ℚ ℚ → ℚ), RelErr rnd u → RelErr div u → 0 ≤ u →
      4194304 * u ≤ 1 / 2 →
      |div (plainSum rnd (e.hits.map f) / e.hits.length) - mean (e.hits.map f)| ≤
        (2 * e.hits.length + 2) * u * mean (e.hits.map fun x => |f x|) := by
    intro rnd div u f hr hdv hu hlim
    have := mean_err hr hdv hu (e.hits.map f) (by simpa using hne) (by
      rw [List.length_map]
      exact (mul_le_mul_of_nonneg_right hq hu).trans hlim)
    rw [List.length_map, List.map_map] at this
    exact this
  exact ⟨go Hit.power twice r24' (by positivity) (by norm_num),
    go Hit.snr r24 r24 (by positivity) (by norm_num),
    go Hit.bandwidth r24 r24 (by positivity) (by norm_num),
    go Hit.driftRate r53 r53 (by positivity) (by norm_num)⟩

/-- The search finds the event of the example in this arithmetic too. -/
example : ∃ e, eventSearch ieee exMap exCadence = .ok [e] ∧ e.hits.length = 2 ∧
    e.averageSnr = 25 := by
  refine ⟨mkEvent ieee ⟨1, 300, [exHit 8400 86400 300 0 20]⟩ (exHit 8400 86400 300 0 20)
    [exHit 8400 86400 300 0 20, exHit (8400 + 1 / 10000) 172800 300 0 30], ?_, rfl, ?_⟩
  · decide +kernel
  · decide +kernel

end Bliss.Event
