import Verif.Hit.Model
import Verif.Comp.MaximaProps
import Mathlib.Data.List.Forall2

/-!
# Properties of hits (C18 – C20)
-/

set_option linter.unusedSectionVars false

namespace Bliss.Hit

open Bliss.Comp (Coord Grid Protohit Search findThresh findMaxima)

variable {F D : Type}

/-! ## C18: hit search -/

section
variable [Sub F] [Div F] [LT F] [DecidableLT F] [OfNat F 0] [OfNat F 2]

/-- What the property says about one reported hit: it has the coordinates of the peak `c.indexMax`,
the physical values that belong to them, and the SNR of the peak cell as the search computed it,
which is above the threshold. -/
structure Describes (ar : Arith F D) (cc : Channel D) (p : Plane F D) (noisePower floor thr : F)
    (c : Protohit F) (h : Hit F D) : Prop where
  peak : h.rateIndex = c.indexMax.1 ∧ h.startFreqIndex = c.indexMax.2
  inPlane : p.grid.has (h.rateIndex, h.startFreqIndex)
  freq : h.startFreqMHz = ar.add cc.fch1 (ar.mul cc.foff (ar.ofInt c.indexCenter.2))
  rate : ∃ r, p.rates[h.rateIndex.toNat]? = some r ∧ h.driftRate = r.hz ∧
    h.snr = (p.val (h.rateIndex, h.startFreqIndex) - floor) /
      ar.toF (ar.div (ar.toD noisePower) (ar.sqrt (ar.ofInt (p.steps * r.bins))))
  above : thr < h.snr
  power : h.power = ar.toD (p.val (h.rateIndex, h.startFreqIndex) - floor)
  bandwidth : h.binwidth = c.binwidth ∧ h.bandwidth =
    ar.toF (ar.mul (ar.ofInt h.binwidth) (ar.abs (ar.mul ar.million cc.foff)))
  time : h.startTime = ar.mul (ar.mul (ar.mul cc.tstart (ar.ofInt 24)) (ar.ofInt 60)) (ar.ofInt 60) ∧
    h.duration = ar.mul cc.tsamp (ar.ofInt p.steps)
  channel : h.coarseChannel = cc.number
  counts : ∀ low high rolloff, c.rfi = some (low, high, rolloff) →
    h.rfi.lookup 2 = some low ∧ h.rfi.lookup 4 = some high ∧ h.rfi.lookup 1 = some rolloff

/-- A protohit with consistent fields. -/
structure Sound (s : Search F) (c : Protohit F) : Prop where
  grid : s.grid.has c.indexMax
  snr : c.snr = s.snr c.indexMax
  val : c.maxIntegration = s.val c.indexMax
  noise : c.noise = some (s.noise c.indexMax.1)
  above : s.thr < c.snr

theorem toHit_describes {ar : Arith F D} {junk : Coord → Int} {cc : Channel D} {p : Plane F D}
    {noisePower floor : F} {o : Options F} (hr : p.grid.drifts ≤ p.rates.length) {c : Protohit F}
    (hc : Sound (toSearch ar p noisePower floor o) c) :
    ∃ h, toHit ar junk cc p floor c = .ok h ∧ Describes ar cc p noisePower floor o.thr c h := by
  have hg : p.grid.has c.indexMax := hc.grid
  obtain ⟨g1, g2, g3, g4⟩ := hg
  have hlt : c.indexMax.1.toNat < p.rates.length := by omega
  have hget : p.rates[c.indexMax.1.toNat]? = some p.rates[c.indexMax.1.toNat] :=
    List.getElem?_eq_getElem hlt
  have hnoise : (toSearch ar p noisePower floor o).noise c.indexMax.1 =
      noiseOf ar noisePower p.steps p.rates[c.indexMax.1.toNat] := by
    simp [toSearch, hget]
  have hval : c.maxIntegration = p.val c.indexMax := hc.val
  have hn := hc.noise
  rw [hnoise] at hn
  have hsnr : c.snr = (p.val c.indexMax - floor) /
      noiseOf ar noisePower p.steps p.rates[c.indexMax.1.toNat] := by
    rw [hc.snr]; unfold Search.snr; rw [hnoise]; rfl
  have hab := hc.above
  rw [hsnr] at hab
  refine ⟨_, by unfold toHit; rw [hget, hn], ?_⟩
  refine ⟨⟨rfl, rfl⟩, hc.grid, rfl, ⟨_, hget, rfl, ?_⟩, ?_, ?_, ⟨rfl, rfl⟩, ⟨rfl, rfl⟩, rfl, ?_⟩
  · simp only [hval]; rfl
  · simp only [hval]; exact hab
  · simp only [hval]
  · rintro low high roll e
    simp only [e, countsOf, kRolloff, kLowSk, kHighSk]
    exact ⟨rfl, rfl, rfl⟩

theorem toHits_describes {ar : Arith F D} {junk : Coord → Int} {cc : Channel D} {p : Plane F D}
    {noisePower floor : F} {o : Options F} (hr : p.grid.drifts ≤ p.rates.length)
    (cs : List (Protohit F)) (hcs : ∀ c ∈ cs, Sound (toSearch ar p noisePower floor o) c) :
    ∃ hs, toHits ar junk cc p floor cs = .ok hs ∧
      List.Forall₂ (Describes ar cc p noisePower floor o.thr) cs hs := by
  induction cs with
  | nil => exact ⟨[], rfl, .nil⟩
  | cons c cs ih =>
    obtain ⟨h, h1, h2⟩ := toHit_describes (junk := junk) (cc := cc) hr (hcs c (List.mem_cons_self ..))
    obtain ⟨hs, h3, h4⟩ := ih fun c' hc' => hcs c' (List.mem_cons_of_mem _ hc')
    exact ⟨h :: hs, by simp [toHits, h1, h3], .cons h2 h4⟩

theorem foldl_grows {s : Search F} {seed : Coord} (htrans : ∀ a b c : F, a < b → b < c → a < c)
    (L : List Coord) (p : Protohit F) :
    (L.foldl (s.add seed) p).snr = p.snr ∨ p.snr < (L.foldl (s.add seed) p).snr := by
  induction L generalizing p with
  | nil => exact Or.inl rfl
  | cons c L ih =>
    rw [List.foldl_cons]
    have hstep : (s.add seed p c).snr = p.snr ∨ p.snr < (s.add seed p c).snr := by
      unfold Search.add Search.track
      split
      · next h => exact Or.inr h
      · exact Or.inl rfl
    rcases ih (s.add seed p c) with h | h <;> rcases hstep with h' | h'
    · exact Or.inl (h.trans h')
    · right; rw [h]; exact h'
    · right; rw [← h']; exact h
    · right; exact htrans _ _ _ h' h

theorem findThresh_sound (s : Search F) (fltMin : F)
    (htrans : ∀ a b c : F, a < b → b < c → a < c)
    (hhalf : ∀ v : F, s.thr < v → s.thr / 2 < v) (hmin : ∀ v : F, s.thr < v → fltMin < v) :
    ∃ cs, findThresh s fltMin = .ok cs ∧ ∀ c ∈ cs, Sound s c := by
  obtain ⟨comps, h1, h2⟩ := Comp.findThresh_spec s fltMin
  refine ⟨_, h1, ?_⟩
  intro c hc
  obtain ⟨A, hA, rfl⟩ := List.mem_map.1 hc
  obtain ⟨_, _, a3, _, a5, a6⟩ := h2.comp_ok A hA
  have ht : s.thr < s.snr A.1 := by simpa [Comp.threshSys] using a3
  rcases a5 with hg | hg
  · obtain ⟨L, hL⟩ := hg.head
    have hp := Comp.peak_first (s := s) (hmin _ ht) L
    have hgrow := foldl_grows (s := s) (seed := A.1) htrans L
      (s.add A.1 (Comp.freshHit fltMin) A.1)
    have hfirst : (s.add A.1 (Comp.freshHit fltMin) A.1).snr = s.snr A.1 := by
      unfold Search.add Search.track
      rw [if_pos (show (Comp.freshHit fltMin).snr < s.snr A.1 from hmin _ ht)]
    rw [hfirst] at hgrow
    rw [List.foldl_cons] at hp
    have hrep : Comp.report s fltMin A =
        Comp.finishHit (L.foldl (s.add A.1) (s.add A.1 (Comp.freshHit fltMin) A.1)) := by
      unfold Comp.report; rw [hL, List.foldl_cons]
    rw [hrep]
    refine ⟨?_, hp.snr, hp.val, hp.noise, ?_⟩
    · have := hp.mem
      rw [← hL] at this
      exact (a6 _ this).2.2
    · show s.thr < (L.foldl (s.add A.1) (s.add A.1 (Comp.freshHit fltMin) A.1)).snr
      rcases hgrow with h | h
      · rw [h]; exact ht
      · exact htrans _ _ _ ht h
  · exact absurd hg.1 (by simpa [Comp.threshSys] using hhalf _ ht)

theorem findMaxima_sound (s : Search F) (hirr : ∀ a : F, ¬ a < a) :
    ∃ cs, findMaxima s = .ok cs ∧ ∀ c ∈ cs, Sound s c := by
  by_cases hd : 1 ≤ s.dist
  · exact ⟨[], Comp.C17_finds_nothing s hirr hd, by simp⟩
  · obtain ⟨cs, h1, h2, _⟩ := Comp.C17_no_neighbourhood_partial s (by omega)
    refine ⟨cs, h1, fun c hc => ?_⟩
    obtain ⟨b1, b2, b3, b4, b5, _⟩ := h2 c hc
    exact ⟨b1, b3, b4, b5, by rw [b3]; exact b2⟩

/-- **C18.** For every plane with one drift-rate record per drift, every noise estimate, channel
and search method, and every threshold for which being above it implies being above half of it and
above the smallest normal float (thresholds from `FLT_MIN` up, and NaN), `hit_search` returns, and
its hits correspond one to one and in order to the protohits of the search, each as `Describes`
says; in particular its SNR is above the threshold. Floats need only have a transitive irreflexive
`<`.

Missing: thresholds below the smallest normal float, where the code reads an uninitialised noise
value (`C18_tiny_snr_undefined`). -/
theorem C18_hit_search_partial (ar : Arith F D) (fltMin : F) (junk : Coord → Int) (cc : Channel D)
    (p : Plane F D) (noisePower floor : F) (o : Options F)
    (htrans : ∀ a b c : F, a < b → b < c → a < c) (hirr : ∀ a : F, ¬ a < a)
    (hr : p.grid.drifts ≤ p.rates.length)
    (hhalf : ∀ v : F, o.thr < v → o.thr / 2 < v) (hmin : ∀ v : F, o.thr < v → fltMin < v) :
    ∃ cs hs, protohitSearch ar fltMin p noisePower floor o = .ok cs ∧
      hitSearch ar fltMin junk cc p noisePower floor o = .ok hs ∧
      List.Forall₂ (Describes ar cc p noisePower floor o.thr) cs hs := by
  have hlen : ¬ p.rates.length < p.grid.drifts := by omega
  have key : ∃ cs, protohitSearch ar fltMin p noisePower floor o = .ok cs ∧
      ∀ c ∈ cs, Sound (toSearch ar p noisePower floor o) c := by
    unfold protohitSearch
    rw [if_neg hlen]
    cases o.method with
    | connectedComponents => exact findThresh_sound _ _ htrans hhalf hmin
    | localMaxima => exact findMaxima_sound _ hirr
    | other => exact ⟨[], rfl, by simp⟩
  obtain ⟨cs, h1, h2⟩ := key
  obtain ⟨hs, h3, h4⟩ := toHits_describes (junk := junk) (cc := cc) hr cs h2
  exact ⟨cs, hs, h1, by simp [hitSearch, h1, h3], h4⟩

end

/-- Integer stand-in for the float arithmetic, for the examples. -/
def intArith : Arith Int Int :=
  ⟨id, id, id, (· + ·), (· * ·), fun _ _ => 1, fun a => a.natAbs, id, 1000000⟩

/-- One drift, four channels, one strong cell. -/
def planeEx (vals : List Int) : Plane Int Int :=
  ⟨⟨1, vals.length⟩, fun c => vals.getD c.2.toNat 0, fun _ => (0, 0, 0), 8, [⟨3, 1⟩]⟩

/-- The hypotheses of `C18_hit_search_partial` are met and the result is not empty. -/
example :
    hitSearch intArith 0 (fun _ => 0) ⟨1000, 2, 7, 5, 9⟩ (planeEx [0, 30, 0, 0]) 1 0
        ⟨.connectedComponents, 10, 2⟩ = .ok
      [⟨1, 1002, 7 * 24 * 60 * 60, 40, 0, 3, 30, 0, 30, 0, 0, [(1, 0), (2, 0), (4, 0)], 9⟩] ∧
    (∀ v : Int, (10 : Int) < v → 10 / 2 < v) ∧ (∀ v : Int, (10 : Int) < v → 0 < v) :=
  ⟨rfl, fun v h => by omega, fun v h => by omega⟩

/-- With threshold 0 and a cell whose SNR does not exceed the initial running peak, `hit_search`
reads a noise value that was never written. (`fltMin` is played by 5.) -/
theorem C18_tiny_snr_undefined :
    hitSearch intArith 5 (fun _ => 0) ⟨1000, 2, 7, 5, 9⟩ (planeEx [0, 3]) 1 0
      ⟨.connectedComponents, 0, 2⟩ = .ub := rfl

/-! ## C19: filtering -/

/-- The count of a flag in a hit: absent means 0. -/
def count (m : Counts) (k : Nat) : Nat := (m.lookup k).getD 0

/-- Entries sorted by key, as in a `std::map`. -/
def SortedKeys (m : Counts) : Prop := m.Pairwise fun a b => a.1 < b.1

/-- A hit to be kept. -/
def Acceptable (tiny : D → Bool) (filterZeroDrift : Bool) (h : Hit F D) : Prop :=
  count h.rfi kRolloff = 0 ∧ count h.rfi kLowSk = 0 ∧
    ¬ (filterZeroDrift = true ∧ tiny h.driftRate = true)

instance (tiny : D → Bool) (z : Bool) (h : Hit F D) : Decidable (Acceptable tiny z h) := by
  unfold Acceptable; infer_instance

theorem mapAt_fst (k : Nat) (m : Counts) (hm : SortedKeys m) : (mapAt k m).1 = count m k := by
  induction m with
  | nil => rfl
  | cons e m ih =>
    obtain ⟨j, v⟩ := e
    have hm' := List.pairwise_cons.1 hm
    unfold mapAt
    by_cases h1 : k < j
    · rw [if_pos h1]
      have hnone : List.lookup k ((j, v) :: m) = none := by
        rw [List.lookup_eq_none_iff]
        intro p hp
        rcases List.mem_cons.1 hp with rfl | hp
        · simp; omega
        · have := hm'.1 p hp
          simp only at this
          simp; omega
      unfold count; rw [hnone]; rfl
    · rw [if_neg h1]
      by_cases h2 : k = j
      · rw [if_pos h2]; subst h2; simp [count]
      · rw [if_neg h2]
        have hb : (k == j) = false := by simpa using h2
        have : count ((j, v) :: m) k = count m k := by
          unfold count; rw [List.lookup_cons, hb]
        rw [this, ← ih hm'.2]

/-- Adds the entry `(k, 0)` if there is none. -/
def touch (k : Nat) (m : Counts) : Counts := (mapAt k m).2

theorem touch_keys (k : Nat) (m : Counts) : ∀ e ∈ touch k m, e = (k, 0) ∨ e ∈ m := by
  induction m with
  | nil => intro e he; exact Or.inl (by simpa [touch, mapAt] using he)
  | cons e m ih =>
    obtain ⟨j, v⟩ := e
    intro e he
    unfold touch mapAt at he
    split at he
    · rcases List.mem_cons.1 he with h | h
      · exact Or.inl h
      · exact Or.inr h
    · split at he
      · exact Or.inr he
      · rcases List.mem_cons.1 he with h | h
        · exact Or.inr (by rw [h]; exact List.mem_cons_self ..)
        · rcases ih e h with h | h
          · exact Or.inl h
          · exact Or.inr (List.mem_cons_of_mem _ h)

theorem touch_sorted (k : Nat) (m : Counts) (hm : SortedKeys m) : SortedKeys (touch k m) := by
  induction m with
  | nil => simp [touch, mapAt, SortedKeys]
  | cons e m ih =>
    obtain ⟨j, v⟩ := e
    have hm' := List.pairwise_cons.1 hm
    unfold touch mapAt
    split
    · next h =>
      refine List.pairwise_cons.2 ⟨?_, hm⟩
      intro e he
      rcases List.mem_cons.1 he with rfl | he
      · exact h
      · have := hm'.1 e he; simp only at this ⊢; omega
    · split
      · exact hm
      · refine List.pairwise_cons.2 ⟨?_, ih hm'.2⟩
        intro e he
        rcases touch_keys k m e he with rfl | h
        · simp only; omega
        · exact hm'.1 e h

theorem count_cons (e : Nat × Nat) (m : Counts) (i : Nat) :
    count (e :: m) i = if i = e.1 then e.2 else count m i := by
  unfold count
  rw [List.lookup_cons]
  by_cases h : i = e.1
  · have : (i == e.1) = true := by simpa using h
    rw [this, if_pos h]; rfl
  · have : (i == e.1) = false := by simpa using h
    rw [this, if_neg h]

theorem count_notin (m : Counts) (i : Nat) (h : ∀ e ∈ m, e.1 ≠ i) : count m i = 0 := by
  induction m with
  | nil => rfl
  | cons e m ih =>
    rw [count_cons, if_neg (fun h' => h e (List.mem_cons_self ..) h'.symm)]
    exact ih fun e' he' => h e' (List.mem_cons_of_mem _ he')

theorem count_touch (k i : Nat) (m : Counts) (hm : SortedKeys m) : count (touch k m) i = count m i := by
  induction m with
  | nil => unfold touch mapAt; rw [count_cons]; split <;> simp [count]
  | cons e m ih =>
    obtain ⟨j, v⟩ := e
    have hm' := List.pairwise_cons.1 hm
    unfold touch mapAt
    split
    · next h =>
      rw [count_cons]
      simp only
      split
      · next hik =>
        symm
        refine count_notin _ _ ?_
        intro e he
        rcases List.mem_cons.1 he with rfl | he
        · simp only; omega
        · have := hm'.1 e he; simp only at this; omega
      · rfl
    · split
      · rfl
      · show count ((j, v) :: touch k m) i = _
        rw [count_cons, count_cons, ih hm'.2]

/-- The entry exists. -/
def Present (m : Counts) (k : Nat) : Prop := ∃ v, (k, v) ∈ m

theorem touch_present (k : Nat) (m : Counts) (hm : SortedKeys m) (hp : Present m k) : touch k m = m := by
  induction m with
  | nil => obtain ⟨v, hv⟩ := hp; cases hv
  | cons e m ih =>
    obtain ⟨j, v⟩ := e
    have hm' := List.pairwise_cons.1 hm
    obtain ⟨w, hw⟩ := hp
    unfold touch mapAt
    rcases List.mem_cons.1 hw with h | h
    · have : k = j := (Prod.mk.inj h).1
      rw [if_neg (by omega), if_pos this]
    · have := hm'.1 _ h
      simp only at this
      rw [if_neg (by omega), if_neg (by omega)]
      show (j, v) :: touch k m = _
      rw [ih hm'.2 ⟨w, h⟩]

theorem present_touch (k : Nat) (m : Counts) : Present (touch k m) k := by
  induction m with
  | nil => exact ⟨0, by simp [touch, mapAt]⟩
  | cons e m ih =>
    obtain ⟨j, v⟩ := e
    unfold touch mapAt
    split
    · exact ⟨0, List.mem_cons_self ..⟩
    · split
      · next h => subst h; exact ⟨v, List.mem_cons_self ..⟩
      · obtain ⟨w, hw⟩ := ih
        exact ⟨w, List.mem_cons_of_mem _ hw⟩

theorem Present.touch {k i : Nat} {m : Counts} (h : Present m i) : Present (touch k m) i := by
  obtain ⟨w, hw⟩ := h
  refine ⟨w, ?_⟩
  induction m with
  | nil => cases hw
  | cons e m ih =>
    obtain ⟨j, v⟩ := e
    unfold Hit.touch mapAt
    split
    · exact List.mem_cons_of_mem _ hw
    · split
      · exact hw
      · rcases List.mem_cons.1 hw with h | h
        · rw [h]; exact List.mem_cons_self ..
        · exact List.mem_cons_of_mem _ (ih h)

/-- A kept hit, with the entries that `operator[]` may have added. -/
def touched (h : Hit F D) : Hit F D := { h with rfi := touch kLowSk (touch kRolloff h.rfi) }

theorem filterHits_eq (tiny : D → Bool) (z : Bool) (hs : List (Hit F D))
    (hm : ∀ h ∈ hs, SortedKeys h.rfi) :
    filterHits tiny z hs = (hs.filter fun h => decide (Acceptable tiny z h)).map touched := by
  induction hs with
  | nil => rfl
  | cons h hs ih =>
    have h1 := hm h (List.mem_cons_self ..)
    have ih' := ih fun h' hh' => hm h' (List.mem_cons_of_mem _ hh')
    have e1 := mapAt_fst kRolloff h.rfi h1
    have e2 : (mapAt kLowSk (mapAt kRolloff h.rfi).2).1 = count h.rfi kLowSk := by
      exact (mapAt_fst kLowSk _ (touch_sorted kRolloff _ h1)).trans (count_touch _ _ _ h1)
    unfold filterHits
    simp only [e1, e2]
    by_cases ha : Acceptable tiny z h
    · rw [List.filter_cons_of_pos (by simpa using ha), List.map_cons, ← ih']
      obtain ⟨a1, a2, a3⟩ := ha
      rw [if_neg]
      · rfl
      · simp only [a1, a2]
        simpa using a3
    · rw [List.filter_cons_of_neg (by simpa using ha), ← ih', if_pos]
      by_contra hn
      simp only [Bool.not_eq_true, Bool.or_eq_false_iff, decide_eq_false_iff_not] at hn
      exact ha ⟨by omega, by omega, by
        rintro ⟨b1, b2⟩
        rw [b1, b2] at hn
        exact absurd hn.2 (by simp)⟩

/-- **C19.** On hits that carry both counts (as every hit found by the component search does),
`filter_hits` returns exactly the acceptable hits, unchanged and in their order.

Missing: hits without these entries are not returned unchanged (`C19_adds_entries`); which hits are
kept is right for them too (`C19_selection`). -/
theorem C19_filter_partial (tiny : D → Bool) (z : Bool) (hs : List (Hit F D))
    (hm : ∀ h ∈ hs, SortedKeys h.rfi)
    (hp : ∀ h ∈ hs, Present h.rfi kRolloff ∧ Present h.rfi kLowSk) :
    filterHits tiny z hs = hs.filter fun h => decide (Acceptable tiny z h) := by
  rw [filterHits_eq tiny z hs hm]
  conv => rhs; rw [← List.map_id (hs.filter _)]
  refine List.map_congr_left ?_
  intro h hh
  have hmem := (List.mem_filter.1 hh).1
  obtain ⟨p1, p2⟩ := hp h hmem
  have h1 := hm h hmem
  unfold touched
  rw [touch_present _ _ h1 p1, touch_present _ _ h1 p2]
  rfl

/-- **C19 (selection).** Whatever the counts, the hits kept are the acceptable ones in order; each
differs from the original at most by explicit zero counts: every count is the same. -/
theorem C19_selection (tiny : D → Bool) (z : Bool) (hs : List (Hit F D))
    (hm : ∀ h ∈ hs, SortedKeys h.rfi) :
    List.Forall₂ (fun h h' => h' = { h with rfi := h'.rfi } ∧ ∀ k, count h'.rfi k = count h.rfi k)
      (hs.filter fun h => decide (Acceptable tiny z h)) (filterHits tiny z hs) := by
  rw [filterHits_eq tiny z hs hm]
  rw [List.forall₂_map_right_iff, List.forall₂_same]
  intro h hh
  have h1 := hm h (List.mem_filter.1 hh).1
  refine ⟨rfl, fun k => ?_⟩
  show count (touch kLowSk (touch kRolloff h.rfi)) k = _
  rw [count_touch _ _ _ (touch_sorted _ _ h1), count_touch _ _ _ h1]

/-- **C19 (idempotent).** Filtering twice is filtering once. -/
theorem C19_idempotent (tiny : D → Bool) (z : Bool) (hs : List (Hit F D))
    (hm : ∀ h ∈ hs, SortedKeys h.rfi) :
    filterHits tiny z (filterHits tiny z hs) = filterHits tiny z hs := by
  have hsub : ∀ h' ∈ filterHits tiny z hs, ∃ h ∈ hs, Acceptable tiny z h ∧ h' = touched h := by
    intro h' hh'
    rw [filterHits_eq tiny z hs hm] at hh'
    obtain ⟨h, hh, rfl⟩ := List.mem_map.1 hh'
    obtain ⟨a, b⟩ := List.mem_filter.1 hh
    exact ⟨h, a, by simpa using b, rfl⟩
  rw [C19_filter_partial tiny z (filterHits tiny z hs)]
  · rw [List.filter_eq_self]
    intro h' hh'
    obtain ⟨h, hh, ha, rfl⟩ := hsub h' hh'
    have h1 := hm h hh
    have hc : ∀ k, count (touched h).rfi k = count h.rfi k := fun k => by
      show count (touch kLowSk (touch kRolloff h.rfi)) k = _
      rw [count_touch _ _ _ (touch_sorted _ _ h1), count_touch _ _ _ h1]
    have : Acceptable tiny z (touched h) := by
      refine ⟨?_, ?_, ha.2.2⟩
      · rw [hc]; exact ha.1
      · rw [hc]; exact ha.2.1
    simpa using this
  · intro h' hh'
    obtain ⟨h, hh, _, rfl⟩ := hsub h' hh'
    exact touch_sorted _ _ (touch_sorted _ _ (hm h hh))
  · intro h' hh'
    obtain ⟨h, hh, _, rfl⟩ := hsub h' hh'
    exact ⟨(present_touch _ _).touch, present_touch _ _⟩

/-- **C19 (concatenation).** Filtering a concatenation is concatenating the filtered lists. -/
theorem C19_append (tiny : D → Bool) (z : Bool) (a b : List (Hit F D)) :
    filterHits tiny z (a ++ b) = filterHits tiny z a ++ filterHits tiny z b := by
  induction a with
  | nil => rfl
  | cons h a ih =>
    rw [List.cons_append]
    simp only [filterHits, ih]
    split
    · rfl
    · rfl

/-- **C19 (channel).** On a channel with hits set, the channel version filters them; without, it
throws `invalid_argument`. -/
theorem C19_channel (tiny : D → Bool) (z : Bool) (hs : List (Hit F D)) :
    filterChannel tiny z (some hs) = .ok (filterHits tiny z hs) ∧
    filterChannel (F := F) tiny z none = .throws .invalidArgument := ⟨rfl, rfl⟩

/-- A hit with the given counts. -/
def hitWith (drift : Int) (m : Counts) : Hit Int Int := ⟨0, 0, 0, 0, 0, drift, 0, 0, 0, 0, 0, m, 0⟩

/-- Three hits: one kept, one with a kurtosis count, one without drift. -/
example : filterHits (fun d => decide (d = 0)) true
    [hitWith 5 [(1, 0), (2, 0), (4, 3)], hitWith 5 [(1, 0), (2, 1), (4, 0)],
      hitWith 0 [(1, 0), (2, 0), (4, 0)]] = [hitWith 5 [(1, 0), (2, 0), (4, 3)]] := rfl

/-- **C19 is violated on hits without RFI counts** (such as hits read back from a file): the kept
hit comes back with counts it did not have, and no longer equals the original. -/
theorem C19_adds_entries :
    filterHits (fun _ => false) false [hitWith 5 []] = [hitWith 5 [(1, 0), (2, 0)]] ∧
    Hit.beq FOrd.int FOrd.int (hitWith 5 [(1, 0), (2, 0)]) (hitWith 5 []) = false := ⟨rfl, rfl⟩

/-! ## C20: order -/

/-- Laws of `==` and `<` that IEEE floats satisfy, NaN included. -/
structure FOrd.Lawful {α : Type} (o : FOrd α) : Prop where
  eq_symm : ∀ a b, o.eq a b = true → o.eq b a = true
  eq_trans : ∀ a b c, o.eq a b = true → o.eq b c = true → o.eq a c = true
  lt_irrefl : ∀ a, o.lt a a = false
  lt_trans : ∀ a b c, o.lt a b = true → o.lt b c = true → o.lt a c = true
  lt_eq : ∀ a b c, o.lt a b = true → o.eq b c = true → o.lt a c = true
  eq_lt : ∀ a b c, o.eq a b = true → o.lt b c = true → o.lt a c = true
  lt_ne : ∀ a b, o.lt a b = true → o.eq a b = false

/-- No NaN: any two values are equal or comparable. -/
def FOrd.Total {α : Type} (o : FOrd α) : Prop :=
  ∀ a b, o.eq a b = true ∨ o.lt a b = true ∨ o.lt b a = true

theorem FOrd.int_lawful : FOrd.int.Lawful := by
  constructor <;> simp only [FOrd.int, decide_eq_true_eq, decide_eq_false_iff_not] <;> omega

theorem FOrd.int_total : FOrd.int.Total := by
  intro a b; simp only [FOrd.int, decide_eq_true_eq]; omega

theorem countsLt_irrefl (a : Counts) : countsLt a a = false := by
  induction a with
  | nil => rfl
  | cons e a ih =>
    obtain ⟨j, v⟩ := e
    unfold countsLt
    rw [if_neg (by omega), if_neg (by omega)]
    exact ih

theorem countsLt_trans (a b c : Counts) (h1 : countsLt a b = true) (h2 : countsLt b c = true) :
    countsLt a c = true := by
  induction a generalizing b c with
  | nil =>
    cases b with
    | nil => simp [countsLt] at h1
    | cons e b =>
      cases c with
      | nil => simp [countsLt] at h2
      | cons f c => rfl
  | cons x a ih =>
    cases b with
    | nil => simp [countsLt] at h1
    | cons y b =>
      cases c with
      | nil => simp [countsLt] at h2
      | cons z c =>
        obtain ⟨x1, x2⟩ := x
        obtain ⟨y1, y2⟩ := y
        obtain ⟨z1, z2⟩ := z
        unfold countsLt at h1 h2 ⊢
        split at h1
        · split at h2
          · rw [if_pos (by omega)]
          · split at h2
            · cases h2
            · rw [if_pos (by omega)]
        · split at h1
          · cases h1
          · split at h2
            · rw [if_pos (by omega)]
            · split at h2
              · cases h2
              · rw [if_neg (by omega), if_neg (by omega)]
                exact ih b c h1 h2

theorem countsLt_total (a b : Counts) : a = b ∨ countsLt a b = true ∨ countsLt b a = true := by
  induction a generalizing b with
  | nil => cases b with
    | nil => exact Or.inl rfl
    | cons y b => exact Or.inr (Or.inl rfl)
  | cons x a ih =>
    cases b with
    | nil => exact Or.inr (Or.inr rfl)
    | cons y b =>
      obtain ⟨x1, x2⟩ := x
      obtain ⟨y1, y2⟩ := y
      unfold countsLt
      by_cases h1 : x1 < y1 ∨ (x1 = y1 ∧ x2 < y2)
      · rw [if_pos h1]; exact Or.inr (Or.inl rfl)
      · by_cases h2 : y1 < x1 ∨ (y1 = x1 ∧ y2 < x2)
        · rw [if_neg h1, if_pos h2, if_pos h2]; exact Or.inr (Or.inr rfl)
        · rw [if_neg h1, if_neg h2, if_neg h2, if_neg h1]
          have e1 : x1 = y1 := by omega
          have e2 : x2 = y2 := by omega
          subst e1 e2
          rcases ih b with h | h | h
          · exact Or.inl (by rw [h])
          · exact Or.inr (Or.inl h)
          · exact Or.inr (Or.inr h)

theorem FOrd.counts_lawful : FOrd.counts.Lawful where
  eq_symm := by intro a b h; simp only [FOrd.counts, decide_eq_true_eq] at *; exact h.symm
  eq_trans := by intro a b c h1 h2; simp only [FOrd.counts, decide_eq_true_eq] at *; exact h1.trans h2
  lt_irrefl := countsLt_irrefl
  lt_trans := countsLt_trans
  lt_eq := by intro a b c h1 h2; simp only [FOrd.counts, decide_eq_true_eq] at *; rwa [← h2]
  eq_lt := by intro a b c h1 h2; simp only [FOrd.counts, decide_eq_true_eq] at *; rwa [h1]
  lt_ne := by
    intro a b h
    simp only [FOrd.counts, decide_eq_false_iff_not] at *
    rintro rfl
    rw [countsLt_irrefl] at h; cases h

theorem FOrd.counts_total : FOrd.counts.Total := by
  intro a b; simpa [FOrd.counts] using countsLt_total a b

/-- Compare by one field, then by the rest. -/
def FOrd.andThen {α β : Type} (o : FOrd α) (get : β → α) (rest : FOrd β) : FOrd β :=
  ⟨fun a b => o.eq (get a) (get b) && rest.eq a b,
   fun a b => if !o.eq (get a) (get b) then o.lt (get a) (get b) else rest.lt a b⟩

/-- Compare by one field. -/
def FOrd.on {α β : Type} (o : FOrd α) (get : β → α) : FOrd β :=
  ⟨fun a b => o.eq (get a) (get b), fun a b => o.lt (get a) (get b)⟩

theorem FOrd.Lawful.on {α β : Type} {o : FOrd α} (h : o.Lawful) (get : β → α) : (o.on get).Lawful :=
  ⟨fun _ _ => h.eq_symm _ _, fun _ _ _ => h.eq_trans _ _ _, fun _ => h.lt_irrefl _,
    fun _ _ _ => h.lt_trans _ _ _, fun _ _ _ => h.lt_eq _ _ _, fun _ _ _ => h.eq_lt _ _ _,
    fun _ _ => h.lt_ne _ _⟩

theorem FOrd.Lawful.andThen {α β : Type} {o : FOrd α} {rest : FOrd β} (h : o.Lawful)
    (hr : rest.Lawful) (get : β → α) : (o.andThen get rest).Lawful where
  eq_symm := by
    intro a b hab
    simp only [FOrd.andThen, Bool.and_eq_true] at *
    exact ⟨h.eq_symm _ _ hab.1, hr.eq_symm _ _ hab.2⟩
  eq_trans := by
    intro a b c h1 h2
    simp only [FOrd.andThen, Bool.and_eq_true] at *
    exact ⟨h.eq_trans _ _ _ h1.1 h2.1, hr.eq_trans _ _ _ h1.2 h2.2⟩
  lt_irrefl := by
    intro a
    simp only [FOrd.andThen]
    split
    · exact h.lt_irrefl _
    · exact hr.lt_irrefl _
  lt_trans := by
    intro a b c h1 h2
    simp only [FOrd.andThen] at *
    by_cases e1 : o.eq (get a) (get b) = true <;> by_cases e2 : o.eq (get b) (get c) = true
    · simp only [e1, e2, Bool.not_true, Bool.false_eq_true, if_false] at h1 h2
      simp only [h.eq_trans _ _ _ e1 e2, Bool.not_true, Bool.false_eq_true, if_false]
      exact hr.lt_trans _ _ _ h1 h2
    · simp only [e1, e2, Bool.not_true, Bool.not_false, Bool.false_eq_true, if_false, if_true] at h1 h2
      have hl := h.eq_lt _ _ _ e1 h2
      simp only [h.lt_ne _ _ hl, Bool.not_false, if_true]; exact hl
    · simp only [e1, e2, Bool.not_true, Bool.not_false, Bool.false_eq_true, if_false, if_true] at h1 h2
      have hl := h.lt_eq _ _ _ h1 e2
      simp only [h.lt_ne _ _ hl, Bool.not_false, if_true]; exact hl
    · simp only [e1, e2, Bool.not_false, if_true] at h1 h2
      have hl := h.lt_trans _ _ _ h1 h2
      simp only [h.lt_ne _ _ hl, Bool.not_false, if_true]; exact hl
  lt_eq := by
    intro a b c h1 h2
    simp only [FOrd.andThen, Bool.and_eq_true] at *
    by_cases e1 : o.eq (get a) (get b) = true
    · simp only [e1, Bool.not_true, Bool.false_eq_true, if_false] at h1
      simp only [h.eq_trans _ _ _ e1 h2.1, Bool.not_true, Bool.false_eq_true, if_false]
      exact hr.lt_eq _ _ _ h1 h2.2
    · simp only [e1, Bool.not_false, if_true] at h1
      have hl := h.lt_eq _ _ _ h1 h2.1
      simp only [h.lt_ne _ _ hl, Bool.not_false, if_true]; exact hl
  eq_lt := by
    intro a b c h1 h2
    simp only [FOrd.andThen, Bool.and_eq_true] at *
    by_cases e2 : o.eq (get b) (get c) = true
    · simp only [e2, Bool.not_true, Bool.false_eq_true, if_false] at h2
      simp only [h.eq_trans _ _ _ h1.1 e2, Bool.not_true, Bool.false_eq_true, if_false]
      exact hr.eq_lt _ _ _ h1.2 h2
    · simp only [e2, Bool.not_false, if_true] at h2
      have hl := h.eq_lt _ _ _ h1.1 h2
      simp only [h.lt_ne _ _ hl, Bool.not_false, if_true]; exact hl
  lt_ne := by
    intro a b h1
    simp only [FOrd.andThen] at *
    by_cases e1 : o.eq (get a) (get b) = true
    · simp only [e1, Bool.not_true, Bool.false_eq_true, if_false] at h1
      simp [e1, hr.lt_ne _ _ h1]
    · simp [e1]

theorem FOrd.Total.andThen {α β : Type} {o : FOrd α} {rest : FOrd β} (h : o.Total) (hl : o.Lawful)
    (hr : rest.Total) (get : β → α) : (o.andThen get rest).Total := by
  intro a b
  simp only [FOrd.andThen, Bool.and_eq_true]
  by_cases e : o.eq (get a) (get b) = true
  · simp only [e, hl.eq_symm _ _ e, Bool.not_true, Bool.false_eq_true, if_false, true_and]
    exact hr a b
  · have e' : ¬ o.eq (get b) (get a) = true := fun h' => e (hl.eq_symm _ _ h')
    simp only [e, e', Bool.not_false, if_true, false_and, false_or, Bool.false_eq_true]
    rcases h (get a) (get b) with h | h | h
    · exact absurd h e
    · exact Or.inl h
    · exact Or.inr h

/-- The comparison of hits as a chain of fields. -/
def hitOrd (oF : FOrd F) (oD : FOrd D) : FOrd (Hit F D) :=
  FOrd.int.andThen (·.startFreqIndex) <| oD.andThen (·.startFreqMHz) <| oD.andThen (·.startTime) <|
  oD.andThen (·.duration) <| FOrd.int.andThen (·.rateIndex) <| oD.andThen (·.driftRate) <|
  oD.andThen (·.power) <| FOrd.int.andThen (·.timeSpan) <| oF.andThen (·.snr) <|
  oF.andThen (·.bandwidth) <| FOrd.int.andThen (·.binwidth) <| FOrd.counts.on (·.rfi)

theorem hitOrd_lt (oF : FOrd F) (oD : FOrd D) (a b : Hit F D) :
    (hitOrd oF oD).lt a b = Hit.blt oF oD a b := rfl

theorem hitOrd_eq (oF : FOrd F) (oD : FOrd D) (a b : Hit F D) :
    (hitOrd oF oD).eq a b = Hit.beq oF oD a b := by
  simp only [hitOrd, FOrd.andThen, FOrd.on, Hit.beq, Bool.and_assoc]

theorem hitOrd_lawful {oF : FOrd F} {oD : FOrd D} (hF : oF.Lawful) (hD : oD.Lawful) :
    (hitOrd oF oD).Lawful :=
  FOrd.int_lawful.andThen (hD.andThen (hD.andThen (hD.andThen (FOrd.int_lawful.andThen (hD.andThen
    (hD.andThen (FOrd.int_lawful.andThen (hF.andThen (hF.andThen (FOrd.int_lawful.andThen
      (FOrd.counts_lawful.on _) _) _) _) _) _) _) _) _) _) _) _

theorem hitOrd_total {oF : FOrd F} {oD : FOrd D} (hF : oF.Lawful) (hD : oD.Lawful)
    (tF : oF.Total) (tD : oD.Total) : (hitOrd oF oD).Total := by
  have last : (FOrd.counts.on (Hit.rfi : Hit F D → Counts)).Total := fun a b => FOrd.counts_total _ _
  exact FOrd.int_total.andThen FOrd.int_lawful (tD.andThen hD (tD.andThen hD (tD.andThen hD
    (FOrd.int_total.andThen FOrd.int_lawful (tD.andThen hD (tD.andThen hD
      (FOrd.int_total.andThen FOrd.int_lawful (tF.andThen hF (tF.andThen hF
        (FOrd.int_total.andThen FOrd.int_lawful last _) _) _) _) _) _) _) _) _) _) _

/-- **C20.** `operator<` on hits is irreflexive and transitive and never holds between equal hits,
with or without NaN fields; without NaN any two unequal hits are ordered, and being incomparable is
the same as being equal, so `<` is a strict weak order. -/
theorem C20_hit_order {oF : FOrd F} {oD : FOrd D} (hF : oF.Lawful) (hD : oD.Lawful) :
    (∀ a : Hit F D, Hit.blt oF oD a a = false) ∧
    (∀ a b c : Hit F D, Hit.blt oF oD a b = true → Hit.blt oF oD b c = true →
      Hit.blt oF oD a c = true) ∧
    (∀ a b : Hit F D, Hit.beq oF oD a b = true →
      Hit.blt oF oD a b = false ∧ Hit.blt oF oD b a = false) ∧
    (oF.Total → oD.Total → ∀ a b : Hit F D,
      (Hit.beq oF oD a b = false → Hit.blt oF oD a b = true ∨ Hit.blt oF oD b a = true) ∧
      (Hit.beq oF oD a b = true ↔ Hit.blt oF oD a b = false ∧ Hit.blt oF oD b a = false)) := by
  have hl := hitOrd_lawful (F := F) (D := D) hF hD
  have hne : ∀ a b : Hit F D, Hit.beq oF oD a b = true →
      Hit.blt oF oD a b = false ∧ Hit.blt oF oD b a = false := by
    intro a b h
    rw [← hitOrd_eq] at h
    constructor
    · cases hh : Hit.blt oF oD a b with
      | false => rfl
      | true =>
        rw [← hitOrd_lt] at hh
        rw [hl.lt_ne _ _ hh] at h; cases h
    · cases hh : Hit.blt oF oD b a with
      | false => rfl
      | true =>
        rw [← hitOrd_lt] at hh
        have := hl.eq_symm _ _ h
        rw [hl.lt_ne _ _ hh] at this; cases this
  refine ⟨fun a => ?_, fun a b c h1 h2 => ?_, hne, ?_⟩
  · rw [← hitOrd_lt]; exact hl.lt_irrefl a
  · rw [← hitOrd_lt] at *; exact hl.lt_trans a b c h1 h2
  · intro tF tD a b
    have ht := hitOrd_total (F := F) (D := D) hF hD tF tD a b
    rw [hitOrd_eq, hitOrd_lt, hitOrd_lt] at ht
    refine ⟨?_, hne a b, ?_⟩
    · intro h
      rcases ht with h' | h' | h'
      · rw [h] at h'; cases h'
      · exact Or.inl h'
      · exact Or.inr h'
    · rintro ⟨h1, h2⟩
      rcases ht with h' | h' | h'
      · exact h'
      · rw [h1] at h'; cases h'
      · rw [h2] at h'; cases h'

/-- A float-like type with a NaN, `none`. -/
def nanOrd : FOrd (Option Int) :=
  ⟨fun a b => match a, b with | some x, some y => decide (x = y) | _, _ => false,
   fun a b => match a, b with | some x, some y => decide (x < y) | _, _ => false⟩

/-- The laws assumed of floats hold with a NaN. -/
theorem nanOrd_lawful : nanOrd.Lawful := by
  constructor
  · rintro (_ | a) (_ | b) <;> simp [nanOrd]; omega
  · rintro (_ | a) (_ | b) (_ | c) <;> simp [nanOrd]; omega
  · rintro (_ | a) <;> simp [nanOrd]
  · rintro (_ | a) (_ | b) (_ | c) <;> simp [nanOrd]; omega
  · rintro (_ | a) (_ | b) (_ | c) <;> simp [nanOrd]; omega
  · rintro (_ | a) (_ | b) (_ | c) <;> simp [nanOrd]; omega
  · rintro (_ | a) (_ | b) <;> simp [nanOrd]; omega

/-- A hit with the given SNR. -/
def hitSnr (x : Option Int) : Hit (Option Int) Int := ⟨0, 0, 0, 0, 0, 0, 0, 0, x, none, 0, [], 0⟩

/-- With a NaN SNR the order is no longer a strict weak order: a hit with NaN SNR is incomparable to
two hits that are themselves ordered. -/
theorem C20_nan_breaks_weak_order :
    Hit.blt nanOrd FOrd.int (hitSnr (some 1)) (hitSnr none) = false ∧
    Hit.blt nanOrd FOrd.int (hitSnr none) (hitSnr (some 1)) = false ∧
    Hit.blt nanOrd FOrd.int (hitSnr (some 2)) (hitSnr none) = false ∧
    Hit.blt nanOrd FOrd.int (hitSnr none) (hitSnr (some 2)) = false ∧
    Hit.blt nanOrd FOrd.int (hitSnr (some 1)) (hitSnr (some 2)) = true ∧
    Hit.beq nanOrd FOrd.int (hitSnr none) (hitSnr none) = false := ⟨rfl, rfl, rfl, rfl, rfl, rfl⟩

/-- The channel a hit was found in takes no part in the comparison: two hits from different coarse
channels can be equal. -/
theorem C20_ignores_channel (oF : FOrd F) (oD : FOrd D) (a : Hit F D) (n : Int) (b : Hit F D) :
    Hit.beq oF oD { a with coarseChannel := n } b = Hit.beq oF oD a b ∧
    Hit.blt oF oD { a with coarseChannel := n } b = Hit.blt oF oD a b := ⟨rfl, rfl⟩

end Bliss.Hit
