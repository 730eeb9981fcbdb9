import Verif.Comp.Lemmas

/-!
# Properties of the component searches (C10 – C16, C66)

A cluster list is the return value of the modelled function. `Neighbour`, `Reaches`,
`SymmetricNbh`, `l1` and `allCells` are defined in `Verif/Comp/Spec.lean`.
-/

set_option linter.unusedSectionVars false

namespace Bliss.Comp

/-! ## Binary mask -/

/-- **C10.** For every grid, mask and neighbourhood list the search returns (it terminates without
undefined behaviour), no cell is reported twice, and the reported cells are exactly the nonzero
cells of the grid. No component is empty. -/
theorem C10_components_partition (g : Grid) (mask : Coord → Nat) (nbh : List Coord) :
    ∃ comps, findBinary g mask nbh = .ok comps ∧
      comps.flatten.Nodup ∧
      (∀ x, x ∈ comps.flatten ↔ g.has x ∧ mask x > 0) ∧
      ∀ K ∈ comps, K ≠ [] := by
  obtain ⟨comps, h1, h2⟩ := findBinary_spec g mask nbh
  refine ⟨_, h1, ?_, ?_, ?_⟩
  · rw [List.nodup_flatten]
    refine ⟨?_, ?_⟩
    · intro K hK
      obtain ⟨A, hA, rfl⟩ := List.mem_map.1 hK
      exact (h2.comp_ok A hA).2.2.2.1
    · rw [List.pairwise_map]
      refine h2.apart.imp ?_
      intro A B hAB
      intro x hx hx'
      exact (hAB x hx x hx').1 rfl
  · intro x
    constructor
    · intro hx
      obtain ⟨K, hK, hxK⟩ := List.mem_flatten.1 hx
      obtain ⟨A, hA, rfl⟩ := List.mem_map.1 hK
      obtain ⟨b1, _, b3⟩ := (h2.comp_ok A hA).2.2.2.2.2 x hxK
      exact ⟨b3, by simpa [nz] using b1⟩
    · rintro ⟨hg, hm⟩
      obtain ⟨A, hA, hx⟩ := h2.seeds x hg (by simpa [nz] using hm) rfl rfl
      exact List.mem_flatten.2 ⟨A.2, List.mem_map.2 ⟨A, hA, rfl⟩, hx⟩
  · intro K hK
    obtain ⟨A, hA, rfl⟩ := List.mem_map.1 hK
    rcases (h2.comp_ok A hA).2.2.2.2.1 with hg | hg
    · obtain ⟨L, hL⟩ := hg.head
      rw [hL]; simp
    · exact absurd hg.1 (by simp [binarySys])

/-- A 2×3 mask with an isolated corner and a pair, 4-neighbourhood. -/
def maskEx : Coord → Nat := fun c => if c = (0, 0) ∨ c = (0, 1) ∨ c = (1, 2) then 1 else 0

def cross : List Coord := [(-1, 0), (1, 0), (0, -1), (0, 1)]

example : findBinary ⟨2, 3⟩ maskEx cross = .ok [[(0, 0), (0, 1)], [(1, 2)]] := by rfl

/-- **C11 (connected).** Every component has a cell from which all its cells can be reached by
neighbourhood steps inside the component. -/
theorem C11_components_connected (g : Grid) (mask : Coord → Nat) (nbh : List Coord)
    {comps : List (List Coord)} (h : findBinary g mask nbh = .ok comps) {K : List Coord}
    (hK : K ∈ comps) : ∃ s ∈ K, ∀ x ∈ K, Reaches nbh (· ∈ K) s x := by
  obtain ⟨comps', h1, h2⟩ := findBinary_spec g mask nbh
  rw [h1] at h
  cases h
  obtain ⟨A, hA, rfl⟩ := List.mem_map.1 hK
  rcases (h2.comp_ok A hA).2.2.2.2.1 with hg | hg
  · obtain ⟨L, hL⟩ := hg.head
    refine ⟨A.1, by rw [hL]; simp, ?_⟩
    intro x hx
    have := hg.reach x hx
    clear hx
    induction this with
    | refl => exact .refl
    | tail _ hab ih => exact ih.tail ⟨hab.1, mem_shift.1 hab.2⟩
  · exact absurd hg.1 (by simp [binarySys])

/-- **C11 (exact).** For a symmetric neighbourhood a component is exactly the set of cells that can
be reached, through nonzero cells of the grid, from any one of its cells. -/
theorem C11_components_exact (g : Grid) (mask : Coord → Nat) (nbh : List Coord)
    (hsym : SymmetricNbh nbh) {comps : List (List Coord)}
    (h : findBinary g mask nbh = .ok comps) {K : List Coord} (hK : K ∈ comps) {a : Coord}
    (ha : a ∈ K) (x : Coord) : x ∈ K ↔ Reaches nbh (fun c => g.has c ∧ mask c > 0) a x := by
  have hconn := C11_components_connected g mask nbh h hK
  obtain ⟨comps', h1, h2⟩ := findBinary_spec g mask nbh
  rw [h1] at h
  cases h
  obtain ⟨A, hA, rfl⟩ := List.mem_map.1 hK
  have hrev : ∀ p q, Neighbour nbh p q → Neighbour nbh q p := by
    rintro p q ⟨o, ho, e1, e2⟩
    exact ⟨_, hsym o ho, by simp only; omega, by simp only; omega⟩
  have hin : ∀ p ∈ A.2, g.has p ∧ mask p > 0 := by
    intro p hp
    obtain ⟨b1, _, b3⟩ := (h2.comp_ok A hA).2.2.2.2.2 p hp
    exact ⟨b3, by simpa [nz] using b1⟩
  constructor
  · intro hx
    obtain ⟨s, hs, hall⟩ := hconn
    -- reverse the path from `s` to `a`, then go to `x`
    have up : ∀ y, Reaches nbh (· ∈ A.2) s y → y ∈ A.2 ∧
        Reaches nbh (fun c => g.has c ∧ mask c > 0) y s := by
      intro y hy
      induction hy with
      | refl => exact ⟨hs, .refl⟩
      | @tail p q hp hpq ih =>
        exact ⟨hpq.1, Relation.ReflTransGen.head ⟨hin p ih.1, hrev _ _ hpq.2⟩ ih.2⟩
    have down : Reaches nbh (fun c => g.has c ∧ mask c > 0) s x := by
      have := hall x hx
      clear hx
      induction this with
      | refl => exact .refl
      | tail _ hab ih => exact ih.tail ⟨hin _ hab.1, hab.2⟩
    exact (up a (hall a ha)).2.trans down
  · intro hx
    induction hx with
    | refl => exact ha
    | @tail p q _ hpq ih =>
      exact h2.merged hA ih (mem_shift.2 hpq.2) (mem_shift.2 (hrev _ _ hpq.2)) hpq.1.1
        (by simpa [nz] using hpq.1.2) rfl

example : SymmetricNbh cross := by unfold SymmetricNbh cross; decide

/-- With a neighbourhood that is not symmetric, neighbouring nonzero cells can end up in different
components: only the offset "one channel down" is given, and the scan goes upwards. -/
theorem C11_asymmetric_splits :
    findBinary ⟨1, 2⟩ (fun _ => 1) [(0, -1)] = .ok [[(0, 0)], [(0, 1)]] := by rfl

/-! ## Above threshold -/

section
variable {F : Type} [Sub F] [Div F] [LT F] [DecidableLT F] [OfNat F 0] [OfNat F 2]

/-- **C12.** For every plane, noise, threshold and distance the search returns; no cell is reported
twice, in one cluster or in two; every reported cell is in the grid and above half the threshold;
and, if being above the threshold implies being above half of it (true of every float threshold
that is `≥ 0` or NaN), every cell above the threshold is reported and every cluster contains one.

Missing: negative thresholds, where the last two claims are false
(`C12_negative_threshold_loses_cells`). -/
theorem C12_clusters_disjoint_complete_partial (s : Search F) (fltMin : F) :
    ∃ hits, findThresh s fltMin = .ok hits ∧
      (allCells hits).Nodup ∧
      (∀ h ∈ hits, ∀ x ∈ h.locations, s.grid.has x ∧ s.thr / 2 < s.snr x) ∧
      ((∀ v : F, s.thr < v → s.thr / 2 < v) →
        (∀ x, s.grid.has x → s.thr < s.snr x → x ∈ allCells hits) ∧
        ∀ h ∈ hits, ∃ x ∈ h.locations, s.thr < s.snr x) := by
  obtain ⟨comps, h1, h2⟩ := findThresh_spec s fltMin
  have hmem : ∀ x, x ∈ allCells (comps.map (report s fltMin)) ↔ ∃ A ∈ comps, x ∈ A.2 := by
    intro x
    simp [allCells, List.mem_flatMap, report_locations]
  refine ⟨_, h1, ?_, ?_, ?_⟩
  · have : allCells (comps.map (report s fltMin)) = (comps.map Prod.snd).flatten := by
      simp [allCells, List.flatMap, report_locations, Function.comp_def]
    rw [this, List.nodup_flatten]
    refine ⟨?_, ?_⟩
    · intro K hK
      obtain ⟨A, hA, rfl⟩ := List.mem_map.1 hK
      exact (h2.comp_ok A hA).2.2.2.1
    · rw [List.pairwise_map]
      refine h2.apart.imp ?_
      intro A B hAB x hx hx'
      exact (hAB x hx x hx').1 rfl
  · intro h hh x hx
    obtain ⟨A, hA, rfl⟩ := List.mem_map.1 hh
    rw [report_locations] at hx
    obtain ⟨_, b2, b3⟩ := (h2.comp_ok A hA).2.2.2.2.2 x hx
    exact ⟨b3, by simpa [threshSys] using b2⟩
  · intro hhalf
    refine ⟨?_, ?_⟩
    · intro x hx ht
      rw [hmem]
      exact h2.seeds x hx rfl (by simpa [threshSys] using ht)
        (by simpa [threshSys] using hhalf _ ht)
    · intro h hh
      obtain ⟨A, hA, rfl⟩ := List.mem_map.1 hh
      obtain ⟨_, _, a3, _, a5, _⟩ := h2.comp_ok A hA
      have ht : s.thr < s.snr A.1 := by simpa [threshSys] using a3
      rcases a5 with hg | hg
      · obtain ⟨L, hL⟩ := hg.head
        exact ⟨A.1, by rw [report_locations, hL]; simp, ht⟩
      · exact absurd hg.1 (by simpa [threshSys] using hhalf _ ht)

/-- The hypothesis of the completeness part, for a threshold `≥ 0` in an ordered field. -/
example (t : Int) (ht : 0 ≤ t) (v : Int) (h : t < v) : t / 2 < v := by omega

/-- **C66.** A cluster is connected: from its first cell every other one can be reached by steps to
cells at L1 distance at most `dist` that stay in the cluster. -/
theorem C66_clusters_connected (s : Search F) (fltMin : F) {hits : List (Protohit F)}
    (h : findThresh s fltMin = .ok hits) {c : Protohit F} (hc : c ∈ hits) {a : Coord}
    {rest : List Coord} (ha : c.locations = a :: rest) :
    ∀ x ∈ c.locations,
      Relation.ReflTransGen (fun p q => q ∈ c.locations ∧ l1 p q ≤ s.dist) a x := by
  obtain ⟨comps, h1, h2⟩ := findThresh_spec s fltMin
  rw [h1] at h
  cases h
  obtain ⟨A, hA, rfl⟩ := List.mem_map.1 hc
  rw [report_locations] at *
  rcases (h2.comp_ok A hA).2.2.2.2.1 with hg | hg
  · obtain ⟨L, hL⟩ := hg.head
    have hs : A.1 = a := by rw [hL] at ha; exact (List.cons.inj ha).1
    intro x hx
    have := hg.reach x hx
    rw [hs] at this
    clear hx
    induction this with
    | refl => exact .refl
    | @tail p q _ hab ih =>
      refine ih.tail ⟨hab.1, ?_⟩
      obtain ⟨o, ho, e1, e2⟩ := mem_shift.1 hab.2
      obtain ⟨_, _, o3, o4⟩ := mem_l1Offsets.1 ho
      have e1' : p.1 - q.1 = -o.1 := by omega
      have e2' : p.2 - q.2 = -o.2 := by omega
      unfold l1
      rw [e1', e2', abs_neg, abs_neg]
      have : |o.1| ≤ s.dist - |o.2| := abs_le.2 ⟨by omega, by omega⟩
      omega
  · rw [hg.2] at ha; cases ha

/-- **C13.** If every value above the threshold is above the smallest normal float and above half
the threshold (e.g. any threshold from `FLT_MIN` up, such as the default 10), then the peak of each
cluster is one of its cells, its SNR, value and noise are reported, and no cell of the cluster has
a larger SNR. The order needs only to be transitive and irreflexive, as on floats with NaN.

Missing: thresholds below the smallest normal float (`C13_tiny_snr_has_no_peak`). -/
theorem C13_peak_is_strongest_partial (s : Search F) (fltMin : F)
    (htrans : ∀ a b c : F, a < b → b < c → a < c) (hirr : ∀ a : F, ¬ a < a)
    (hhalf : ∀ v : F, s.thr < v → s.thr / 2 < v) (hmin : ∀ v : F, s.thr < v → fltMin < v)
    {hits : List (Protohit F)} (h : findThresh s fltMin = .ok hits) {c : Protohit F}
    (hc : c ∈ hits) :
    c.indexMax ∈ c.locations ∧
    c.snr = (s.val c.indexMax - s.floor) / s.noise c.indexMax.1 ∧
    c.maxIntegration = s.val c.indexMax ∧
    c.noise = some (s.noise c.indexMax.1) ∧
    ∀ x ∈ c.locations, ¬ c.snr < (s.val x - s.floor) / s.noise x.1 := by
  obtain ⟨comps, h1, h2⟩ := findThresh_spec s fltMin
  rw [h1] at h
  cases h
  obtain ⟨A, hA, rfl⟩ := List.mem_map.1 hc
  obtain ⟨_, _, a3, _, a5, _⟩ := h2.comp_ok A hA
  have ht : s.thr < s.snr A.1 := by simpa [threshSys] using a3
  rw [report_locations]
  rcases a5 with hg | hg
  · obtain ⟨L, hL⟩ := hg.head
    have hp := peak_first (s := s) (hmin _ ht) L
    rw [← hL] at hp
    have hmax := foldl_max (s := s) (seed := A.1) htrans hirr A.2 [] (freshHit fltMin) (by simp)
    rw [List.nil_append] at hmax
    exact ⟨hp.mem, hp.snr, hp.val, hp.noise, hmax⟩
  · exact absurd hg.1 (by simpa [threshSys] using hhalf _ ht)

/-- **C14.** Two cells above half the threshold whose L1 distance is *less than* `dist` are in the
same cluster as soon as one of them is in a cluster.

Missing: distance exactly `dist`, where the claim is false (`C14_exact_distance_not_merged`). -/
theorem C14_near_cells_merged_partial (s : Search F) (fltMin : F) {hits : List (Protohit F)}
    (h : findThresh s fltMin = .ok hits) {c : Protohit F} (hc : c ∈ hits) {p x : Coord}
    (hp : p ∈ c.locations) (hx : s.grid.has x) (hsnr : s.thr / 2 < s.snr x)
    (hd : l1 p x < s.dist) : x ∈ c.locations := by
  obtain ⟨comps, h1, h2⟩ := findThresh_spec s fltMin
  rw [h1] at h
  cases h
  obtain ⟨A, hA, rfl⟩ := List.mem_map.1 hc
  rw [report_locations] at *
  exact h2.merged hA hp (mem_shift.2 (near_neighbour hd))
    (mem_shift.2 (near_neighbour (by rw [l1_comm]; exact hd))) hx rfl (by simpa [threshSys] using hsnr)

/-- **C15.** Under the same hypotheses as C13 the bin width and centre describe the extent of the
cluster at the drift of its peak: with `lo` the lowest channel, `lo` and `lo + binwidth` are cells
of the cluster, every cell of the cluster at that drift lies between them (in particular the peak),
and the centre is the middle, rounded down.

Missing: thresholds below the smallest normal float, where the peak may not be in the cluster
(`C13_tiny_snr_has_no_peak`). -/
theorem C15_extent_brackets_peak_partial (s : Search F) (fltMin : F)
    (hhalf : ∀ v : F, s.thr < v → s.thr / 2 < v) (hmin : ∀ v : F, s.thr < v → fltMin < v)
    {hits : List (Protohit F)} (h : findThresh s fltMin = .ok hits) {c : Protohit F}
    (hc : c ∈ hits) :
    ∃ lo : Int,
      (c.indexMax.1, lo) ∈ c.locations ∧
      (c.indexMax.1, lo + c.binwidth) ∈ c.locations ∧
      (∀ x ∈ c.locations, x.1 = c.indexMax.1 → lo ≤ x.2 ∧ x.2 ≤ lo + c.binwidth) ∧
      lo ≤ c.indexMax.2 ∧ c.indexMax.2 ≤ lo + c.binwidth ∧
      c.indexCenter = (c.indexMax.1, lo + c.binwidth / 2) ∧
      0 ≤ lo ∧ lo + c.binwidth < s.grid.chans := by
  obtain ⟨comps, h1, h2⟩ := findThresh_spec s fltMin
  rw [h1] at h
  cases h
  obtain ⟨A, hA, rfl⟩ := List.mem_map.1 hc
  obtain ⟨_, _, a3, _, a5, a6⟩ := h2.comp_ok A hA
  have ht : s.thr < s.snr A.1 := by simpa [threshSys] using a3
  rw [report_locations]
  rcases a5 with hg | hg
  · obtain ⟨L, hL⟩ := hg.head
    have hp := peak_first (s := s) (hmin _ ht) L
    rw [← hL] at hp
    have hloc : (A.2.foldl (s.add A.1) (freshHit fltMin)).locations = A.2 := by
      rw [foldl_locations]; rfl
    unfold report finishHit
    simp only [hloc]
    generalize hP : A.2.foldl (s.add A.1) (freshHit fltMin) = P at *
    obtain ⟨e1, e2, e3, e4, e5⟩ := extent_spec P.indexMax.1 A.2 P.indexMax.2 P.indexMax.2 (Int.le_refl _)
    generalize extent P.indexMax.1 A.2 (P.indexMax.2, P.indexMax.2) = r at *
    have hlo : (P.indexMax.1, r.1) ∈ A.2 := by
      rcases e4 with e | e
      · rw [e]; exact hp.mem
      · exact e
    have hhi : (P.indexMax.1, r.2) ∈ A.2 := by
      rcases e5 with e | e
      · rw [e]; exact hp.mem
      · exact e
    have hbw : r.1 + (r.2 - r.1) = r.2 := by omega
    have b1 := (a6 _ hlo).2.2
    have b2 := (a6 _ hhi).2.2
    simp only [threshSys_g, Grid.has] at b1 b2
    refine ⟨r.1, hlo, ?_, ?_, e1, ?_, ?_, b1.2.2.1, ?_⟩
    · rw [hbw]; exact hhi
    · intro x hx hx1; rw [hbw]; exact e3 x hx hx1
    · rw [hbw]; exact e2
    · rw [Int.tdiv_eq_ediv_of_nonneg (by omega)]
      congr 1
      omega
    · rw [hbw]; exact b2.2.2.2
  · exact absurd hg.1 (by simpa [threshSys] using hhalf _ ht)

/-- **C16 (what holds).** The RFI counts of a cluster are those of its *first* cell, the one where
the raster scan met the cluster; they are those of the peak when the peak is that cell.

Missing: the property asks for the counts at the peak in general, which is false
(`C16_counts_not_at_peak`). -/
theorem C16_counts_at_first_cell_partial (s : Search F) (fltMin : F)
    (hhalf : ∀ v : F, s.thr < v → s.thr / 2 < v) (hmin : ∀ v : F, s.thr < v → fltMin < v)
    {hits : List (Protohit F)} (h : findThresh s fltMin = .ok hits) {c : Protohit F}
    (hc : c ∈ hits) :
    ∃ a rest, c.locations = a :: rest ∧ s.thr < s.snr a ∧ c.rfi = some (s.rfi a) ∧
      (c.indexMax = a → c.rfi = some (s.rfi c.indexMax)) := by
  obtain ⟨comps, h1, h2⟩ := findThresh_spec s fltMin
  rw [h1] at h
  cases h
  obtain ⟨A, hA, rfl⟩ := List.mem_map.1 hc
  obtain ⟨_, _, a3, _, a5, _⟩ := h2.comp_ok A hA
  have ht : s.thr < s.snr A.1 := by simpa [threshSys] using a3
  rw [report_locations]
  rcases a5 with hg | hg
  · obtain ⟨L, hL⟩ := hg.head
    have hp := peak_first (s := s) (hmin _ ht) L
    rw [← hL] at hp
    have hr : (report s fltMin A).rfi = some (s.rfi A.1) := hp.rfi
    exact ⟨A.1, L, hL, ht, hr, fun e => by rw [e]; exact hr⟩
  · exact absurd hg.1 (by simpa [threshSys] using hhalf _ ht)

end

/-! ## Concrete planes -/

/-- A one-drift plane with noise floor 0 and unit noise; the RFI counters of channel `k` are
`(k, k, k)`. -/
def line (vals : List Int) (thr : Int) (dist : Int) : Search Int where
  grid := ⟨1, vals.length⟩
  val := fun c => vals.getD c.2.toNat 0
  rfi := fun c => (c.2.toNat, c.2.toNat, c.2.toNat)
  floor := 0
  noise := fun _ => 1
  thr := thr
  dist := dist

/-- The hypotheses of C13, C15 and C16 are met by a plane with a two-cell cluster whose peak is the
second cell, and by a second cluster. -/
example :
    findThresh (line [0, 12, 30, 0, 0, 0, 11] 10 2) 0 = .ok
      [ { indexMax := (0, 2), indexCenter := (0, 1), snr := 30, maxIntegration := 30,
          noise := some 1, binwidth := 1, locations := [(0, 1), (0, 2)], rfi := some (1, 1, 1) },
        { indexMax := (0, 6), indexCenter := (0, 6), snr := 11, maxIntegration := 11,
          noise := some 1, binwidth := 0, locations := [(0, 6)], rfi := some (6, 6, 6) } ] ∧
    (∀ v : Int, (10 : Int) < v → 10 / 2 < v) ∧ (∀ v : Int, (10 : Int) < v → 0 < v) :=
  ⟨rfl, fun v h => by omega, fun v h => by omega⟩

/-- **C16 is violated.** The peak of the first cluster above is channel 2, but the counts reported
with it are those of channel 1. -/
theorem C16_counts_not_at_peak :
    ∃ (s : Search Int) (hits : List (Protohit Int)) (c : Protohit Int),
      findThresh s 0 = .ok hits ∧ c ∈ hits ∧ c.indexMax ∈ c.locations ∧
        c.rfi ≠ some (s.rfi c.indexMax) :=
  ⟨line [0, 12, 30] 10 2,
    [ { indexMax := (0, 2), indexCenter := (0, 1), snr := 30, maxIntegration := 30,
        noise := some 1, binwidth := 1, locations := [(0, 1), (0, 2)], rfi := some (1, 1, 1) } ],
    _, rfl, List.mem_singleton.2 rfl, by decide, by decide⟩

/-- **C14 is violated at distance exactly `dist`.** Two strong cells two channels apart with
`dist = 2` are reported as two clusters. -/
theorem C14_exact_distance_not_merged :
    ∃ (s : Search Int) (hits : List (Protohit Int)) (c : Protohit Int) (p x : Coord),
      findThresh s 0 = .ok hits ∧ c ∈ hits ∧ p ∈ c.locations ∧ s.grid.has x ∧
        s.thr / 2 < s.snr x ∧ l1 p x ≤ s.dist ∧ x ∉ c.locations :=
  ⟨line [20, 0, 20] 10 2, _,
    { indexMax := (0, 0), indexCenter := (0, 0), snr := 20, maxIntegration := 20,
      noise := some 1, binwidth := 0, locations := [(0, 0)], rfi := some (0, 0, 0) },
    (0, 0), (0, 2), rfl, List.mem_cons_self .., by decide, by decide, by decide, by decide,
    by decide⟩

/-- **C12 is violated by negative thresholds.** With threshold -10 a cell of SNR -7 is above the
threshold but in no cluster, and an empty cluster is reported. -/
theorem C12_negative_threshold_loses_cells :
    ∃ (s : Search Int) (hits : List (Protohit Int)),
      findThresh s 0 = .ok hits ∧ s.grid.has (0, 0) ∧ s.thr < s.snr (0, 0) ∧
        (0, 0) ∉ allCells hits ∧ ∃ h ∈ hits, h.locations = [] :=
  ⟨line [-7] (-10) 2, _, rfl, by decide, by decide, by decide, _, List.mem_singleton.2 rfl, rfl⟩

/-- **C13 is violated below the smallest normal float.** With threshold 0 and a cell whose SNR is
positive but not above the initial value of the running peak, the reported peak is channel 0, which
is not in the cluster, and the noise is never set. (`fltMin` is played by 5 here.) -/
theorem C13_tiny_snr_has_no_peak :
    ∃ (s : Search Int) (hits : List (Protohit Int)) (c : Protohit Int),
      0 ≤ s.thr ∧ findThresh s 5 = .ok hits ∧ c ∈ hits ∧ c.indexMax ∉ c.locations ∧ c.noise = none :=
  ⟨line [0, 3] 0 2, _, _, by decide, rfl, List.mem_singleton.2 rfl, by decide, rfl⟩

end Bliss.Comp
