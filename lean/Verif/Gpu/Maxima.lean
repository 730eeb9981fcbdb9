import Verif.Gpu.Collect
import Verif.Comp.MaximaProps

/-!
# Model of the local-maxima search on the GPU (`bliss/drift_search/kernels/local_maxima_cuda.cu`)

Simplifications:
* indices are mathematical integers;
* the plane and the noise, which no thread writes, are read through coordinates as in
  `Verif/Comp/Model.lean`; every access is to a cell tested to be in the plane;
* the factor by which the kernel is launched (512 blocks of one thread) is any positive `G`.
-/

namespace Bliss.Gpu

open Bliss.Comp

section
variable {F : Type} [Sub F] [Div F] [LT F] [DecidableLT F]

/-- Models the neighbourhood loops (40–66): `true` is `neighborhood_max`; a neighbour outside the
plane or stronger than the candidate ends the loops with `false`. -/
def hoodMax (s : Search F) (x : Coord) : List Coord → Bool
  | [] => true
  | o :: os =>
    if s.grid.has (shift x o) then
      if s.snr x < s.snr (shift x o) then false else hoodMax s x os
    else false

/-- Models lines 80–103: `n` is the last channel looked at or accepted, `e` its value. The result is
the first channel not accepted. The SNR is that with the noise of the drift of the maximum. -/
def gpuDown (s : Search F) (d : Int) : Nat → F → Int
  | 0, _ => -1
  | n + 1, e =>
    if s.thr < (s.val (d, n) - s.floor) / s.noise d ∧ s.val (d, n) < e then
      gpuDown s d n (s.val (d, n))
    else n

/-- Models lines 106–128, with `n` channels left above the channel `f`. -/
def gpuUp (s : Search F) (d : Int) : Nat → Int → F → Int
  | 0, f, _ => f + 1
  | n + 1, f, e =>
    if s.thr < (s.val (d, f + 1) - s.floor) / s.noise d ∧ s.val (d, f + 1) < e then
      gpuUp s d n (f + 1) (s.val (d, f + 1))
    else f + 1

/-- Lower end of the band of a maximum. -/
def bandLo (s : Search F) (x : Coord) : Int := gpuDown s x.1 x.2.toNat (s.val x)

/-- Upper end of the band of a maximum. -/
def bandHi (s : Search F) (x : Coord) : Int :=
  gpuUp s x.1 (s.grid.chans - 1 - x.2.toNat) x.2 (s.val x)

/-- Models the stores for a maximum at `x` (70–73, 131, 132), one per field. -/
def maximumStores (s : Search F) (x : Coord) : List (Protohit F → Protohit F) :=
  [fun a => { a with indexMax := x },
   fun a => { a with snr := s.snr x },
   fun a => { a with maxIntegration := s.val x },
   fun a => { a with noise := some (s.noise x.1) },
   fun a => { a with binwidth := bandHi s x - bandLo s x },
   fun a => { a with indexCenter := (x.1, (bandHi s x + bandLo s x).tdiv 2) }]

/-- Models the body of the loop (30–68) for the cell at position `n`: the stores if it is a
maximum. -/
def maximumAt (s : Search F) (n : Nat) : Option (List (Protohit F → Protohit F)) :=
  let x := cellAt s.grid n
  if s.thr < s.snr x then
    if hoodMax s x (l1Offsets s.dist) then some (maximumStores s x) else none
  else none

end

/-- Models line 152: the number of protohits allocated; a distance of 0 divides by zero. -/
def maximaCapacity {F : Type} (s : Search F) : Outcome Int :=
  if s.dist = 0 then .ub else .ok ((s.grid.drifts * s.grid.chans : Nat) / (s.dist * s.dist))

/-- Models the export (176–195): the first `counter` protohits in order; rfi counts and locations
are not set. `resize` beyond the capacity would append default protohits. -/
def exportMaxima {F : Type} (cap : Int) (a0 : Protohit F) (μ : CMem (Protohit F)) :
    List (Protohit F) :=
  (List.range μ.counter.toNat).map fun (k : Nat) =>
    let a := if (k : Int) < cap then (μ.slots k).getD a0 else a0
    { a with locations := [], rfi := none }

section
variable {F : Type} [Sub F] [Div F] [LT F] [DecidableLT F]

/-- `find_local_maxima_above_threshold_cuda` (136–196) run with `G` threads can return `out`; `a0`
is a default-constructed protohit. -/
def MaximaReports (s : Search F) (a0 : Protohit F) (G : Nat) (out : List (Protohit F)) : Prop :=
  ∃ cap μ, maximaCapacity s = .ok cap ∧
    Completes (CollectStep (maximumAt s))
      (collectThreads (maximumAt s) (s.grid.drifts * s.grid.chans) G) (collectMem cap a0) μ ∧
    out = exportMaxima cap a0 μ

/-- Some execution of the search has undefined behaviour. -/
def MaximaCanFault (s : Search F) (a0 : Protohit F) (G : Nat) : Prop :=
  maximaCapacity s = .ub ∨ ∃ cap, maximaCapacity s = .ok cap ∧
    Exec (CollectStep (maximumAt s))
      (collectThreads (maximumAt s) (s.grid.drifts * s.grid.chans) G) (collectMem cap a0) .ub

/-! ## Specification -/

/-- A cell the GPU search looks for: above the threshold, with its whole neighbourhood (`InHood`, a
diamond without half of its border) in the plane and no cell of it stronger. -/
def IsMaximum (s : Search F) (x : Coord) : Prop :=
  s.grid.has x ∧ s.thr < s.snr x ∧
    ∀ y : Coord, -s.dist ≤ y.2 - x.2 → y.2 - x.2 < s.dist →
      -s.dist + |y.2 - x.2| ≤ y.1 - x.1 → y.1 - x.1 < s.dist - |y.2 - x.2| →
      s.grid.has y ∧ ¬ s.snr x < s.snr y

/-- A protohit describes the maximum at `x`: its own SNR, value and noise, and the width and centre of the
channels between the first ones on each side that no longer fall or are not above the threshold;
RFI counts and locations are left unset. -/
structure Describes (s : Search F) (a : Protohit F) : Prop where
  snr : a.snr = s.snr a.indexMax
  value : a.maxIntegration = s.val a.indexMax
  noise : a.noise = some (s.noise a.indexMax.1)
  extent : ∃ lo hi, Extent s a.indexMax lo hi ∧ a.binwidth = hi - lo ∧
    a.indexCenter = (a.indexMax.1, (hi + lo).tdiv 2)
  unset : a.rfi = none ∧ a.locations = []

/-! ## Lemmas -/

theorem hoodMax_iff {s : Search F} {x : Coord} {os : List Coord} :
    hoodMax s x os = true ↔ ∀ o ∈ os, s.grid.has (shift x o) ∧ ¬ s.snr x < s.snr (shift x o) := by
  induction os with
  | nil => simp [hoodMax]
  | cons o os ih =>
    unfold hoodMax
    by_cases h1 : s.grid.has (shift x o)
    · by_cases h2 : s.snr x < s.snr (shift x o)
      · simp [h1, h2]
      · simp [h1, h2, ih]
    · simp [h1]

theorem isMaximum_iff {s : Search F} {n : Nat} (hn : n < s.grid.drifts * s.grid.chans) :
    IsMaximum s (cellAt s.grid n) ↔ maximumAt s n = some (maximumStores s (cellAt s.grid n)) := by
  have hx := cellAt_has hn
  unfold maximumAt
  generalize cellAt s.grid n = x at *
  have hh : hoodMax s x (l1Offsets s.dist) = true ↔
      ∀ y : Coord, -s.dist ≤ y.2 - x.2 → y.2 - x.2 < s.dist →
      -s.dist + |y.2 - x.2| ≤ y.1 - x.1 → y.1 - x.1 < s.dist - |y.2 - x.2| →
      s.grid.has y ∧ ¬ s.snr x < s.snr y := by
    rw [hoodMax_iff]
    constructor
    · intro h y h1 h2 h3 h4
      have := h (y.1 - x.1, y.2 - x.2) (mem_l1Offsets.2 ⟨h1, h2, h3, h4⟩)
      simpa [shift] using this
    · intro h o ho
      obtain ⟨h1, h2, h3, h4⟩ := mem_l1Offsets.1 ho
      exact h (shift x o) (by simpa [shift] using h1) (by simpa [shift] using h2)
        (by simpa [shift] using h3) (by simpa [shift] using h4)
  unfold IsMaximum
  rw [← hh]
  by_cases h1 : s.thr < s.snr x
  · by_cases h2 : hoodMax s x (l1Offsets s.dist) = true
    · simp [h1, h2, hx]
    · simp [h1, h2]
  · simp [h1]

theorem maximumAt_cases (s : Search F) (n : Nat) :
    maximumAt s n = none ∨ maximumAt s n = some (maximumStores s (cellAt s.grid n)) := by
  unfold maximumAt
  simp only
  split
  · split
    · exact .inr rfl
    · exact .inl rfl
  · exact .inl rfl

theorem mem_selected {s : Search F} {n : Nat} :
    n ∈ selected (maximumAt s) (s.grid.drifts * s.grid.chans) ↔
      n < s.grid.drifts * s.grid.chans ∧ IsMaximum s (cellAt s.grid n) := by
  simp only [selected, List.mem_filter, List.mem_range]
  refine and_congr_right fun hn => ?_
  rw [isMaximum_iff hn]
  rcases maximumAt_cases s n with h | h <;> simp [h]

theorem gpuDown_extent (s : Search F) (d : Int) :
    ∀ n : Nat, let lo := gpuDown s d n (s.val (d, n));
      -1 ≤ lo ∧ lo < n ∧ (∀ f, lo < f → f < n → Falls s d f (f + 1)) ∧
        (lo = -1 ∨ ¬ Falls s d lo (lo + 1)) := by
  intro n
  induction n with
  | zero =>
    refine ⟨by simp only [gpuDown]; omega, by simp only [gpuDown]; omega, ?_, Or.inl rfl⟩
    intro f h1 h2
    simp only [gpuDown] at h1
    omega
  | succ n ih =>
    unfold gpuDown
    split
    · next hc =>
      obtain ⟨h1, h2, h3, h4⟩ := ih
      refine ⟨h1, by push_cast; omega, ?_, h4⟩
      intro f a b
      by_cases hf : f < n
      · exact h3 f a hf
      · have : f = n := by push_cast at b; omega
        subst this
        exact ⟨hc.1, by have := hc.2; push_cast at this; exact this⟩
    · next hc =>
      refine ⟨by omega, by push_cast; omega, ?_, Or.inr ?_⟩
      · intro f a b; push_cast at b; omega
      · intro hf
        exact hc ⟨hf.1, by have := hf.2; push_cast; exact this⟩

theorem gpuUp_extent (s : Search F) (d : Int) :
    ∀ (n : Nat) (f : Int), f + 1 + n = s.grid.chans →
      let hi := gpuUp s d n f (s.val (d, f));
      f < hi ∧ hi ≤ s.grid.chans ∧ (∀ g, f < g → g < hi → Falls s d g (g - 1)) ∧
        (hi = s.grid.chans ∨ ¬ Falls s d hi (hi - 1)) := by
  intro n
  induction n with
  | zero =>
    intro f hn
    refine ⟨by simp only [gpuUp]; omega, by simp only [gpuUp]; omega, ?_,
      Or.inl (by simp only [gpuUp]; omega)⟩
    intro g h1 h2
    simp only [gpuUp] at h2
    omega
  | succ n ih =>
    intro f hn
    unfold gpuUp
    split
    · next hc =>
      obtain ⟨h1, h2, h3, h4⟩ := ih (f + 1) (by push_cast at hn; omega)
      refine ⟨by omega, h2, ?_, h4⟩
      intro g a b
      by_cases hg : f + 1 < g
      · exact h3 g hg b
      · have : g = f + 1 := by omega
        subst this
        exact ⟨hc.1, by rw [Int.add_sub_cancel]; exact hc.2⟩
    · next hc =>
      refine ⟨by omega, by push_cast at hn; omega, ?_, Or.inr ?_⟩
      · intro g a b; omega
      · intro hf
        exact hc ⟨hf.1, by have := hf.2; rw [Int.add_sub_cancel] at this; exact this⟩

theorem band_extent {s : Search F} {x : Coord} (hx : s.grid.has x) :
    Extent s x (bandLo s x) (bandHi s x) := by
  obtain ⟨d, f⟩ := x
  obtain ⟨h1, h2, h3, h4⟩ := hx
  simp only at h1 h2 h3 h4
  obtain ⟨n, rfl⟩ := Int.eq_ofNat_of_zero_le h3
  obtain ⟨a1, a2, a3, a4⟩ := gpuDown_extent s d n
  obtain ⟨b1, b2, b3, b4⟩ := gpuUp_extent s d (s.grid.chans - 1 - n) n (by omega)
  exact ⟨a1, a2, b1, b2, a3, b3, a4, b4⟩

/-- The record made for a maximum. -/
def maximumRecord (s : Search F) (x : Coord) : Protohit F :=
  { indexMax := x, indexCenter := (x.1, (bandHi s x + bandLo s x).tdiv 2), snr := s.snr x,
    maxIntegration := s.val x, noise := some (s.noise x.1), binwidth := bandHi s x - bandLo s x,
    locations := [], rfi := none }

theorem maxima_list {s : Search F} {a0 : Protohit F} {G : Nat} (hG : 0 < G)
    {out : List (Protohit F)} (h : MaximaReports s a0 G out) :
    ∃ L : List Nat, L.Perm (selected (maximumAt s) (s.grid.drifts * s.grid.chans)) ∧
      out = L.map fun n => maximumRecord s (cellAt s.grid n) := by
  obtain ⟨cap, μ, hcap, hc, rfl⟩ := h
  have hcap0 : 0 ≤ cap := by
    unfold maximaCapacity at hcap
    split at hcap
    · cases hcap
    · obtain rfl := Outcome.ok.inj hcap
      exact Int.ediv_nonneg (by omega) (mul_self_nonneg _)
  obtain ⟨hfit, hcol⟩ := collect_result hG hcap0 (fun n => by
    rcases maximumAt_cases s n with h | h <;> rw [h] <;> simp [maximumStores]) hc
  refine ⟨μ.claims, hcol.perm, ?_⟩
  unfold exportMaxima
  have hlen : μ.counter.toNat = μ.claims.length := by rw [hcol.counter]; simp
  refine List.ext_getElem (by simp [hlen]) fun i h1 h2 => ?_
  simp only [List.length_map, List.length_range] at h1 h2
  have hi : μ.claims[i]? = some μ.claims[i] := List.getElem?_eq_getElem h2
  obtain ⟨ups, hu, hs⟩ := hcol.slot i _ hi
  have hlt : (i : Int) < cap := by
    unfold Fitting at hfit
    rw [← hcol.perm.length_eq] at hfit
    omega
  rcases maximumAt_cases s μ.claims[i] with h | h
  · rw [h] at hu; cases hu
  · rw [h] at hu
    cases hu
    simp only [List.getElem_map, List.getElem_range, hlt, if_true, hs, Option.getD_some, build,
      maximumStores, List.foldl_cons, List.foldl_nil, maximumRecord]

theorem record_describes {s : Search F} {x : Coord} (hx : s.grid.has x) :
    Describes s (maximumRecord s x) :=
  ⟨rfl, rfl, rfl, ⟨_, _, band_extent hx, rfl, rfl⟩, rfl, rfl⟩

/-! ## C83 -/

/-- **C83.** Whatever the plane and the schedule of the threads, the GPU search reports exactly the
maxima, each once, and describes each of them. -/
theorem C83_reports_maxima {s : Search F} {a0 : Protohit F} {G : Nat} (hG : 0 < G)
    {out : List (Protohit F)} (h : MaximaReports s a0 G out) :
    (out.map (·.indexMax)).Nodup ∧ (∀ x, (∃ a ∈ out, a.indexMax = x) ↔ IsMaximum s x) ∧
      ∀ a ∈ out, Describes s a := by
  obtain ⟨L, hperm, rfl⟩ := maxima_list hG h
  have hmem : ∀ n ∈ L, n < s.grid.drifts * s.grid.chans ∧ IsMaximum s (cellAt s.grid n) :=
    fun n hn => mem_selected.1 (hperm.subset hn)
  refine ⟨?_, fun x => ⟨?_, fun hx => ?_⟩, ?_⟩
  · rw [List.map_map]
    refine (List.nodup_map_iff_inj_on (hperm.nodup_iff.2 (List.nodup_range.filter _))).2
      fun a ha b _ hab => ?_
    have hc : 0 < s.grid.chans := by
      rcases Nat.eq_zero_or_pos s.grid.chans with h0 | h0
      · have := (hmem a ha).1; rw [h0] at this; simp at this
      · exact h0
    exact cellAt_inj hc hab
  · rintro ⟨a, ha, rfl⟩
    obtain ⟨n, hn, rfl⟩ := List.mem_map.1 ha
    exact (hmem n hn).2
  · obtain ⟨n, hn, rfl⟩ := has_cellAt hx.1
    exact ⟨_, List.mem_map.2 ⟨n, hperm.mem_iff.2 (mem_selected.2 ⟨hn, hx⟩), rfl⟩, rfl⟩
  · intro a ha
    obtain ⟨n, hn, rfl⟩ := List.mem_map.1 ha
    exact record_describes (hmem n hn).2.1

/-- **C83.** Two runs on the same plane report the same protohits, apart from their order. -/
theorem C83_schedule_independent {s : Search F} {a0 a0' : Protohit F} {G G' : Nat} (hG : 0 < G)
    (hG' : 0 < G') {out out' : List (Protohit F)} (h : MaximaReports s a0 G out)
    (h' : MaximaReports s a0' G' out') : out.Perm out' := by
  obtain ⟨L, hp, rfl⟩ := maxima_list hG h
  obtain ⟨L', hp', rfl⟩ := maxima_list hG' h'
  exact (hp.trans hp'.symm).map _

/-- The cells of the plane that are maxima, row by row. -/
noncomputable def maximaCells (s : Search F) : List Coord :=
  open Classical in
  ((List.range (s.grid.drifts * s.grid.chans)).map (cellAt s.grid)).filter fun x => IsMaximum s x

theorem maximaCells_length (s : Search F) :
    (maximaCells s).length = (selected (maximumAt s) (s.grid.drifts * s.grid.chans)).length := by
  classical
  unfold maximaCells selected
  rw [List.filter_map, List.length_map]
  congr 1
  refine List.filter_congr fun n hn => ?_
  rw [Bool.eq_iff_iff]
  simp only [Function.comp_apply, decide_eq_true_eq]
  rw [isMaximum_iff (List.mem_range.1 hn)]
  rcases maximumAt_cases s n with h | h <;> simp [h]

/-- **C83 (what holds).** If there are no more maxima than `numel / dist²`, no schedule has undefined
behaviour, none runs for ever, and the search returns.

Missing: the property without that condition, see `C83_overflow`. -/
theorem C83_memory_safe_partial {s : Search F} (a0 : Protohit F) {G : Nat} (hG : 0 < G)
    (hd : s.dist ≠ 0)
    (hfit : ((maximaCells s).length : Int) ≤
      (s.grid.drifts * s.grid.chans : Nat) / (s.dist * s.dist)) :
    ¬ MaximaCanFault s a0 G ∧ (∃ out, MaximaReports s a0 G out) ∧
      ∀ cap, Terminates (CollectStep (maximumAt s))
        (collectThreads (maximumAt s) (s.grid.drifts * s.grid.chans) G) (collectMem cap a0) := by
  have hcap : maximaCapacity s = .ok ((s.grid.drifts * s.grid.chans : Nat) / (s.dist * s.dist)) :=
    if_neg hd
  have hroom : Fitting (maximumAt s) (s.grid.drifts * s.grid.chans)
      ((s.grid.drifts * s.grid.chans : Nat) / (s.dist * s.dist)) := by
    unfold Fitting
    rw [← maximaCells_length]
    exact hfit
  refine ⟨?_, ?_, fun cap => collect_terminates hG⟩
  · rintro (h | ⟨cap, h, hx⟩)
    · rw [hcap] at h; cases h
    · rw [hcap] at h
      obtain rfl := Outcome.ok.inj h
      exact collect_no_ub hG hroom hx
  · obtain ⟨μ, hμ⟩ := collect_completes (a0 := a0) hG hroom
    exact ⟨_, _, μ, hcap, hμ, rfl⟩

/-- **C83.** With a neighbour distance of 1 there is always room. -/
theorem C83_distance_one {s : Search F} (a0 : Protohit F) {G : Nat} (hG : 0 < G)
    (hd : s.dist = 1) : ¬ MaximaCanFault s a0 G ∧ ∃ out, MaximaReports s a0 G out := by
  have h := C83_memory_safe_partial a0 hG (s := s) (by omega) (by
    rw [maximaCells_length, hd]
    have : (selected (maximumAt s) (s.grid.drifts * s.grid.chans)).length ≤
        s.grid.drifts * s.grid.chans := by
      refine (List.length_filter_le _ _).trans ?_
      rw [List.length_range]
    simp only [mul_one, Int.ediv_one]
    exact_mod_cast this)
  exact ⟨h.1, h.2.1⟩

/-- **C83 (violation).** With more maxima than `numel / dist²` the search cannot return, and some
schedule stores outside the protohits. -/
theorem C83_overflow {s : Search F} (a0 : Protohit F) {G : Nat} (hG : 0 < G)
    (hd : s.dist ≠ 0)
    (hfit : (s.grid.drifts * s.grid.chans : Nat) / (s.dist * s.dist) <
      ((maximaCells s).length : Int)) :
    MaximaCanFault s a0 G ∧ ¬ ∃ out, MaximaReports s a0 G out := by
  have hcap : maximaCapacity s = .ok ((s.grid.drifts * s.grid.chans : Nat) / (s.dist * s.dist)) :=
    if_neg hd
  have hne : ∀ n, maximumAt s n ≠ some [] := fun n => by
    rcases maximumAt_cases s n with h | h <;> rw [h] <;> simp [maximumStores]
  obtain ⟨h1, h2⟩ := collect_overflow (sel := maximumAt s) (a0 := a0)
    (numel := s.grid.drifts * s.grid.chans) hG
    (Int.ediv_nonneg (by omega : (0 : Int) ≤ (s.grid.drifts * s.grid.chans : Nat))
      (mul_self_nonneg s.dist)) hne (by
      unfold Fitting
      rw [← maximaCells_length]
      omega)
  refine ⟨.inr ⟨_, hcap, h2⟩, ?_⟩
  rintro ⟨out, cap, μ, hc, hμ, _⟩
  rw [hcap] at hc
  obtain rfl := Outcome.ok.inj hc
  exact h1 ⟨μ, hμ⟩

/-- **C83 (violation).** A neighbour distance of 0 divides by zero. -/
theorem C83_distance_zero {s : Search F} (a0 : Protohit F) (G : Nat) (h : s.dist = 0) :
    MaximaCanFault s a0 G := .inl (by simp [maximaCapacity, h])

end

/-! ## Concrete planes -/

/-- A default-constructed protohit. -/
def blankHit : Protohit Int := ⟨(0, 0), (0, 0), 0, 0, none, 0, [], none⟩

/-- A 3×3 plane with a strong cell in the middle, the plane on which the CPU search reports nothing
(`C17_misses_maximum`), with distance 1: the hypotheses of the theorems above are met, and the
middle is reported. -/
theorem C83_bump : ∃ out, MaximaReports bump blankHit 4 out ∧ ∃ a ∈ out, a.indexMax = (1, 1) := by
  obtain ⟨_, out, h⟩ := C83_distance_one (s := bump) blankHit (G := 4) (by decide) rfl
  refine ⟨out, h, ((C83_reports_maxima (by decide) h).2.1 (1, 1)).2 ?_⟩
  have : maximumAt bump 4 = some (maximumStores bump (cellAt bump.grid 4)) := by
    rcases maximumAt_cases bump 4 with h | h
    · have h' : (maximumAt bump 4).isSome = true := by decide
      rw [h] at h'; cases h'
    · exact h
  exact (isMaximum_iff (s := bump) (n := 4) (by decide)).2 this

/-- **C83 (violation), concrete.** A flat 6×6 plane above the threshold, with neighbour distance 2: 12 of its
cells are maxima, and there is room for 9. -/
def flat6 : Search Int :=
  { grid := ⟨6, 6⟩, val := fun _ => 20, rfi := fun _ => (0, 0, 0), floor := 0, noise := fun _ => 1,
    thr := 10, dist := 2 }

theorem C83_plateau_overflow {G : Nat} (hG : 0 < G) :
    MaximaCanFault flat6 blankHit G ∧ ¬ ∃ out, MaximaReports flat6 blankHit G out := by
  refine C83_overflow blankHit hG (by decide) ?_
  rw [maximaCells_length]
  have : (selected (maximumAt flat6) (flat6.grid.drifts * flat6.grid.chans)).length = 12 := by
    decide
  rw [this]
  decide

end Bliss.Gpu
