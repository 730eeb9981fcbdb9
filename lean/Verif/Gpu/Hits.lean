import Verif.Gpu.MaximaTone
import Verif.Gpu.CompGroups
import Verif.Hit.Props

/-!
# Hits of a search on a CUDA device, and what `filter_hits` makes of their flag counts (C158)

`bliss/drift_search/hit_search.cpp` and `protohit_search.cpp` with a drift plane on a CUDA device: the protohits come
from the kernels of `Components.lean` and `Maxima.lean`, everything after them is as on the CPU.
-/

namespace Bliss.Gpu

open Bliss.Comp Bliss.Hit

/-- The export of a protohit of the component search (`connected_components_cuda.cu:476-487`); `locations` is left
empty. -/
def exportHit {F : Type} (a : GpuHit F) : Protohit F :=
  { indexMax := a.indexMax, indexCenter := a.indexCenter, snr := a.snr, maxIntegration := a.maxIntegration,
    noise := some a.noise, binwidth := a.binwidth, locations := [], rfi := some a.rfi }

/-- `hit_search` on a coarse channel whose drift plane is on a CUDA device (`hit_search.cpp:17-58`,
`protohit_search.cpp:34-40`, and the device branches `connected_components.cpp` and `local_maxima.cpp:26-27`) can
return `hs`, with some number of threads and some schedule. -/
def GpuHitSearch {F D : Type} [Sub F] [Div F] [LinearOrder F] [OfNat F 0] [OfNat F 2] (ar : Arith F D)
    (junk : Coord → Int) (cc : Channel D) (p : Plane F D) (noisePower floor : F) (o : Options F)
    (hs : List (Hit F D)) : Prop :=
  match o.method with
  | .connectedComponents => ∃ (G : Nat) (stale : Bool) (out : List (GpuHit F)), 0 < G ∧
      Reports (toSearch ar p noisePower floor o) G stale out ∧
      toHits ar junk cc p floor (out.map exportHit) = .ok hs
  | .localMaxima => ∃ (G : Nat) (a0 : Protohit F) (out : List (Protohit F)), 0 < G ∧
      MaximaReports (toSearch ar p noisePower floor o) a0 G out ∧ toHits ar junk cc p floor out = .ok hs
  | .other => hs = []

/-! ## Specification -/

/-- The cell of the drift plane that a hit names: its drift and its channel. -/
def place {F D : Type} (h : Hit F D) : Coord := (h.rateIndex, h.startFreqIndex)

/-! ## Lemmas -/

section
variable {F D : Type} [Sub F] [Div F] [LinearOrder F] [OfNat F 0] [OfNat F 2] {ar : Arith F D}
  {junk : Coord → Int} {cc : Channel D} {p : Plane F D} {noisePower floor : F} {o : Options F}

theorem toHit_ok {c : Protohit F} {h : Hit F D} (e : toHit ar junk cc p floor c = .ok h) :
    place h = c.indexMax ∧ h.rfi = countsOf c.rfi := by
  unfold toHit at e
  split at e
  · obtain rfl := Outcome.ok.inj e
    exact ⟨rfl, rfl⟩
  · cases e

theorem toHits_ok : ∀ {cs : List (Protohit F)} {hs : List (Hit F D)}, toHits ar junk cc p floor cs = .ok hs →
    List.Forall₂ (fun c h => toHit ar junk cc p floor c = .ok h) cs hs
  | [], hs, e => by
    obtain rfl := Outcome.ok.inj e
    exact .nil
  | c :: cs, hs, e => by
    unfold toHits at e
    cases h1 : toHit ar junk cc p floor c with
    | ok h =>
      cases h2 : toHits ar junk cc p floor cs with
      | ok hs' =>
        rw [h1, h2] at e
        obtain rfl := Outcome.ok.inj e
        exact .cons h1 (toHits_ok h2)
      | _ => rw [h1, h2] at e; cases e
    | _ => rw [h1] at e; cases e

theorem toHits_mem {cs : List (Protohit F)} {hs : List (Hit F D)} (e : toHits ar junk cc p floor cs = .ok hs)
    {h : Hit F D} (hh : h ∈ hs) : ∃ c ∈ cs, toHit ar junk cc p floor c = .ok h := by
  have hf := toHits_ok e
  clear e
  induction hf with
  | nil => simp at hh
  | cons h1 _ ih =>
    rcases List.mem_cons.1 hh with rfl | hh
    · exact ⟨_, by simp, h1⟩
    · obtain ⟨c, hc, e⟩ := ih hh
      exact ⟨c, by simp [hc], e⟩

theorem toHits_places {cs : List (Protohit F)} {hs : List (Hit F D)} (e : toHits ar junk cc p floor cs = .ok hs) :
    hs.map place = cs.map (·.indexMax) := by
  have hf := toHits_ok e
  clear e
  induction hf with
  | nil => rfl
  | cons h1 _ ih => rw [List.map_cons, List.map_cons, ih, (toHit_ok h1).1]

omit [Sub F] [Div F] [LinearOrder F] [OfNat F 0] [OfNat F 2] in
/-- What `filter_hits` keeps, in terms of the counts it reads. -/
theorem filter_places (tiny : D → Bool) (z : Bool) (hs : List (Hit F D)) :
    (filterHits tiny z hs).map place = (hs.filter fun h =>
      !(decide ((mapAt kRolloff h.rfi).1 > 0) || decide ((mapAt kLowSk (mapAt kRolloff h.rfi).2).1 > 0) ||
        (z && tiny h.driftRate))).map place := by
  induction hs with
  | nil => rfl
  | cons h hs ih =>
    unfold filterHits
    simp only
    split
    · next hr => rw [ih, List.filter_cons_of_neg (by rw [hr]; decide)]
    · next hr =>
      rw [List.filter_cons_of_pos (by rw [Bool.not_eq_true] at hr; rw [hr]; rfl), List.map_cons, List.map_cons, ih]
      rfl

/-! ## C158 -/

/-- **C158.** Whatever the schedule, the hits of a search on a CUDA device name different cells of the drift plane; each
has the drift rate and the SNR of its cell, which is above the threshold. -/
theorem C158_hits_describe_cells (hr : p.grid.drifts ≤ p.rates.length) (hd : o.method = .localMaxima ∨ 2 ≤ o.dist)
    {hs : List (Hit F D)} (hrun : GpuHitSearch ar junk cc p noisePower floor o hs) :
    (hs.map place).Nodup ∧ ∀ h ∈ hs, p.grid.has (place h) ∧ o.thr < h.snr ∧
      ∃ r, p.rates[h.rateIndex.toNat]? = some r ∧ h.driftRate = r.hz ∧ h.snr = (p.val (place h) - floor) /
        ar.toF (ar.div (ar.toD noisePower) (ar.sqrt (ar.ofInt (p.steps * r.bins)))) := by
  have key : ∀ cs : List (Protohit F), (cs.map (·.indexMax)).Nodup →
      (∀ c ∈ cs, Sound (toSearch ar p noisePower floor o) c) → toHits ar junk cc p floor cs = .ok hs →
      (hs.map place).Nodup ∧ ∀ h ∈ hs, p.grid.has (place h) ∧ o.thr < h.snr ∧
        ∃ r, p.rates[h.rateIndex.toNat]? = some r ∧ h.driftRate = r.hz ∧ h.snr = (p.val (place h) - floor) /
          ar.toF (ar.div (ar.toD noisePower) (ar.sqrt (ar.ofInt (p.steps * r.bins)))) := by
    intro cs hnd hsound e
    refine ⟨by rw [toHits_places e]; exact hnd, fun h hh => ?_⟩
    obtain ⟨c, hc, he⟩ := toHits_mem e hh
    obtain ⟨h', he', hdes⟩ := toHit_describes (junk := junk) (cc := cc) hr (hsound c hc)
    rw [he] at he'
    obtain rfl := Outcome.ok.inj he'
    exact ⟨hdes.inPlane, hdes.above, hdes.rate⟩
  unfold GpuHitSearch at hrun
  cases hm : o.method with
  | connectedComponents =>
    rw [hm] at hrun
    obtain ⟨G, stale, out, hG, hrep, e⟩ := hrun
    have hd2 : 2 ≤ o.dist := by
      rcases hd with h | h
      · rw [hm] at h; cases h
      · exact h
    obtain ⟨r1, r2, _⟩ := C77_reported_peaks hd2 hG hrep
    refine key _ (by rw [List.map_map]; exact r1) (fun c hc => ?_) e
    obtain ⟨a, ha, rfl⟩ := List.mem_map.1 hc
    obtain ⟨lo, hi, _, _, _, _, _, _, _, _, _, q1, q2, _⟩ := C77_reported_extent hd2 hG hrep ha
    exact ⟨(r2 a ha).1, (r2 a ha).2.2, q1, congrArg some q2, by
      change _ < a.snr
      rw [(r2 a ha).2.2]; exact (r2 a ha).2.1.2.1⟩
  | localMaxima =>
    rw [hm] at hrun
    obtain ⟨G, a0, out, hG, hrep, e⟩ := hrun
    obtain ⟨r1, r2, r3⟩ := C83_reports_maxima hG hrep
    refine key _ r1 (fun c hc => ?_) e
    have hx := (r2 _).1 ⟨c, hc, rfl⟩
    exact ⟨hx.1, (r3 c hc).snr, (r3 c hc).value, (r3 c hc).noise, by rw [(r3 c hc).snr]; exact hx.2.1⟩
  | other =>
    rw [hm] at hrun
    subst hrun
    exact ⟨List.nodup_nil, fun h hh => by simp at hh⟩

/-- **C158.** The width of a hit of the component search on the GPU is that of a band around its cell, in its drift,
outside of which the ascent ends in no peak (or the plane ends), and its frequency that of the middle of the band. -/
theorem C158_components_band (hr : p.grid.drifts ≤ p.rates.length) (hm : o.method = .connectedComponents)
    (hd : 2 ≤ o.dist) {hs : List (Hit F D)} (hrun : GpuHitSearch ar junk cc p noisePower floor o hs) {h : Hit F D}
    (hh : h ∈ hs) :
    ∃ lo hi : Int, 0 ≤ lo ∧ lo < h.startFreqIndex ∧ h.startFreqIndex < hi ∧ hi < p.grid.chans ∧
      (∀ f, lo < f → f < hi → ∃ x, AscendsTo (toSearch ar p noisePower floor o) (h.rateIndex, f) x) ∧
      (lo = 0 ∨ ¬ ∃ x, AscendsTo (toSearch ar p noisePower floor o) (h.rateIndex, lo) x) ∧
      (hi = p.grid.chans - 1 ∨ ¬ ∃ x, AscendsTo (toSearch ar p noisePower floor o) (h.rateIndex, hi) x) ∧
      h.binwidth = hi - lo ∧
      h.bandwidth = ar.toF (ar.mul (ar.ofInt (hi - lo)) (ar.abs (ar.mul ar.million cc.foff))) ∧
      h.startFreqMHz = ar.add cc.fch1 (ar.mul cc.foff (ar.ofInt ((lo + hi).tdiv 2))) := by
  unfold GpuHitSearch at hrun
  rw [hm] at hrun
  obtain ⟨G, stale, out, hG, hrep, e⟩ := hrun
  obtain ⟨c, hc, he⟩ := toHits_mem e hh
  obtain ⟨a, ha, rfl⟩ := List.mem_map.1 hc
  obtain ⟨r1, r2, _⟩ := C77_reported_peaks hd hG hrep
  obtain ⟨lo, hi, q1, q2, q3, q4, q5, q6, q7, q8, q9, q10, q11, _⟩ := C77_reported_extent hd hG hrep ha
  obtain ⟨h', he', hdes⟩ := toHit_describes (junk := junk) (cc := cc) hr
    (c := exportHit a) (noisePower := noisePower) (o := o) ⟨(r2 a ha).1, (r2 a ha).2.2, q10, congrArg some q11, by
      change _ < a.snr
      rw [(r2 a ha).2.2]; exact (r2 a ha).2.1.2.1⟩
  rw [he] at he'
  obtain rfl := Outcome.ok.inj he'
  obtain ⟨p1, p2⟩ := hdes.peak
  have hb : h.binwidth = hi - lo := hdes.bandwidth.1.trans q9
  refine ⟨lo, hi, q1, by rw [p2]; exact q2, by rw [p2]; exact q3, q4, by rw [p1]; exact q5, by rw [p1]; exact q6,
    by rw [p1]; exact q7, hb, by rw [hdes.bandwidth.2, hb], ?_⟩
  rw [hdes.freq]
  change _ = ar.add _ (ar.mul _ (ar.ofInt _))
  congr 3
  change a.indexCenter.2 = _
  rw [q8]

/-- **C158.** The same for the local-maximum search: the band is where the power falls away from the hit's cell on either
side, above the threshold. -/
theorem C158_maxima_band (hr : p.grid.drifts ≤ p.rates.length) (hm : o.method = .localMaxima)
    {hs : List (Hit F D)} (hrun : GpuHitSearch ar junk cc p noisePower floor o hs) {h : Hit F D} (hh : h ∈ hs) :
    ∃ lo hi : Int, Extent (toSearch ar p noisePower floor o) (place h) lo hi ∧ h.binwidth = hi - lo ∧
      h.bandwidth = ar.toF (ar.mul (ar.ofInt (hi - lo)) (ar.abs (ar.mul ar.million cc.foff))) ∧
      h.startFreqMHz = ar.add cc.fch1 (ar.mul cc.foff (ar.ofInt ((hi + lo).tdiv 2))) := by
  unfold GpuHitSearch at hrun
  rw [hm] at hrun
  obtain ⟨G, a0, out, hG, hrep, e⟩ := hrun
  obtain ⟨c, hc, he⟩ := toHits_mem e hh
  obtain ⟨r1, r2, r3⟩ := C83_reports_maxima hG hrep
  have hx := (r2 _).1 ⟨c, hc, rfl⟩
  obtain ⟨lo, hi, q1, q2, q3⟩ := (r3 c hc).extent
  obtain ⟨h', he', hdes⟩ := toHit_describes (junk := junk) (cc := cc) hr (c := c) (noisePower := noisePower) (o := o)
    ⟨hx.1, (r3 c hc).snr, (r3 c hc).value, (r3 c hc).noise, by rw [(r3 c hc).snr]; exact hx.2.1⟩
  rw [he] at he'
  obtain rfl := Outcome.ok.inj he'
  have hb : h.binwidth = hi - lo := hdes.bandwidth.1.trans q2
  exact ⟨lo, hi, by rw [(toHit_ok he).1]; exact q1, hb, by rw [hdes.bandwidth.2, hb], by rw [hdes.freq, q3]⟩

/-- **C158, what holds of the property with the component search.** `filter_hits` removes the hits whose drift line has
samples of low spectral kurtosis, and, if asked to, those of zero drift, and keeps all others in order.

Missing: the lines with samples in the filter rolloff, see `C158_rolloff_kept`. -/
theorem C158_low_kurtosis_removed_partial (hm : o.method = .connectedComponents) (hd : 2 ≤ o.dist)
    {hs : List (Hit F D)} (hrun : GpuHitSearch ar junk cc p noisePower floor o hs) (tiny : D → Bool) (z : Bool) :
    (filterHits tiny z hs).map place =
      (hs.filter fun h => decide ((p.rfi (place h)).1 = 0) && !(z && tiny h.driftRate)).map place := by
  unfold GpuHitSearch at hrun
  rw [hm] at hrun
  obtain ⟨G, stale, out, hG, hrep, e⟩ := hrun
  rw [filter_places]
  congr 1
  refine List.filter_congr fun h hh => ?_
  obtain ⟨c, hc, he⟩ := toHits_mem e hh
  obtain ⟨a, ha, rfl⟩ := List.mem_map.1 hc
  obtain ⟨lo, hi, _, _, _, _, _, _, _, _, _, _, _, q⟩ := C77_reported_extent hd hG hrep ha
  obtain ⟨h1, h2⟩ := toHit_ok he
  rw [h2, h1]
  change _ = (decide ((p.rfi a.indexMax).1 = 0) && _)
  have q' : a.rfi = ((p.rfi a.indexMax).1, (p.rfi a.indexMax).2.1, 0) := q
  simp only [exportHit, q', countsOf, mapAt, kRolloff, kLowSk, kHighSk]
  rcases Nat.eq_zero_or_pos (p.rfi a.indexMax).1 with h0 | h0
  · simp [h0, mapAt]
  · simp [mapAt, h0.ne']

/-- **C158 (violation), for every plane.** After the local-maximum search `filter_hits` does not look at flags: it keeps
every hit, except for those of zero drift if asked to remove them. -/
theorem C158_maxima_not_filtered (hm : o.method = .localMaxima) {hs : List (Hit F D)}
    (hrun : GpuHitSearch ar junk cc p noisePower floor o hs) (tiny : D → Bool) (z : Bool) :
    (filterHits tiny z hs).map place = (hs.filter fun h => !(z && tiny h.driftRate)).map place := by
  unfold GpuHitSearch at hrun
  rw [hm] at hrun
  obtain ⟨G, a0, out, hG, hrep, e⟩ := hrun
  obtain ⟨_, _, r3⟩ := C83_reports_maxima hG hrep
  rw [filter_places]
  congr 1
  refine List.filter_congr fun h hh => ?_
  obtain ⟨c, hc, he⟩ := toHits_mem e hh
  rw [(toHit_ok he).2, (r3 c hc).unset.1]
  simp [countsOf, mapAt, kRolloff, kLowSk]

end

/-! ## Concrete planes -/

/-- Arithmetic in which the noise of every drift is 1. -/
def oneArith : Arith Int Int := ⟨id, fun _ => 1, id, (· + ·), (· * ·), fun a _ => a, fun a => a.natAbs, id, 1000000⟩

/-- A plane of 6 drifts and 8 channels with one strong cell, and the given flag counts everywhere. -/
def flaggedPlane (counts : Nat × Nat × Nat) : Plane Int Int :=
  { grid := ⟨6, 8⟩, val := fun c => if c = (2, 2) then 30 else 0, rfi := fun _ => counts, steps := 3,
    rates := List.replicate 6 ⟨5, 1⟩ }

theorem flagged_weaker (counts : Nat × Nat × Nat) (o : Options Int) (y : Coord)
    (hne : y ≠ (2, 2)) :
    (toSearch oneArith (flaggedPlane counts) 1 0 o).snr y = 0 := by
  simp [Search.snr, toSearch, flaggedPlane, hne]

/-- **C158 (violation).** With every sample of every line in the filter rolloff, the component search on the GPU reports a
hit that `filter_hits` keeps. -/
theorem C158_rolloff_kept (cc : Channel Int) (junk : Coord → Int) : ∃ hs,
    GpuHitSearch oneArith junk cc (flaggedPlane (0, 0, 3)) 1 0 ⟨.connectedComponents, 10, 2⟩ hs ∧
      (2, 2) ∈ (filterHits (fun d => d == 0) true hs).map place := by
  set o : Options Int := ⟨.connectedComponents, 10, 2⟩ with ho
  set s := toSearch oneArith (flaggedPlane (0, 0, 3)) 1 0 o with hs
  obtain ⟨_, out, hout⟩ := C79_memory_safe_partial (s := s) (by decide) (G := 3) (by decide) (cap := 12) (by decide +kernel)
    (by unfold Roomy; decide +kernel) true
  obtain ⟨r1, r2, _⟩ := C77_reported_peaks (s := s) (by decide) (by decide) hout
  have h30 : s.snr (2, 2) = 30 := rfl
  obtain ⟨a, ha, hax, _⟩ := gpu_strongest (s := s) (x := (2, 2)) (by decide) (by decide) hout (by decide) (by decide)
    (by decide) (by decide) fun y _ hne => by
      rw [h30, hs, flagged_weaker _ _ y hne]; decide
  obtain ⟨hs', e, _⟩ := toHits_describes (ar := oneArith) (junk := junk) (cc := cc) (p := flaggedPlane (0, 0, 3))
    (noisePower := 1) (floor := 0) (o := o) (le_refl 6) (out.map exportHit) (by
      intro c hc
      obtain ⟨b, hb, rfl⟩ := List.mem_map.1 hc
      obtain ⟨lo, hi, _, _, _, _, _, _, _, _, _, q1, q2, _⟩ := C77_reported_extent (s := s) (by decide) (by decide) hout hb
      exact ⟨(r2 b hb).1, (r2 b hb).2.2, q1, congrArg some q2, by
        change _ < b.snr
        rw [(r2 b hb).2.2]; exact (r2 b hb).2.1.2.1⟩)
  have hrun : GpuHitSearch oneArith junk cc (flaggedPlane (0, 0, 3)) 1 0 o hs' :=
    ⟨3, true, out, by decide, hout, e⟩
  refine ⟨hs', hrun, ?_⟩
  rw [C158_low_kurtosis_removed_partial rfl (by decide) hrun]
  have hmem : (2, 2) ∈ hs'.map place := by
    rw [toHits_places e, List.map_map]
    exact List.mem_map.2 ⟨a, ha, hax⟩
  obtain ⟨h, hh, hp⟩ := List.mem_map.1 hmem
  refine List.mem_map.2 ⟨h, List.mem_filter.2 ⟨hh, ?_⟩, hp⟩
  obtain ⟨_, _, r, k1, k2, _⟩ := (C158_hits_describe_cells (le_refl 6) (.inr (by decide)) hrun).2 h hh
  have hr : r = ⟨5, 1⟩ := List.eq_of_mem_replicate (List.mem_of_getElem? k1)
  rw [k2, hr]
  rfl

/-- **C158 (violation).** With every sample of every line flagged for low kurtosis, high kurtosis and rolloff, the
local-maximum search on the GPU reports a hit that `filter_hits` keeps. -/
theorem C158_flagged_maximum_kept (cc : Channel Int) (junk : Coord → Int) (a0 : Protohit Int) : ∃ hs,
    GpuHitSearch oneArith junk cc (flaggedPlane (3, 3, 3)) 1 0 ⟨.localMaxima, 10, 1⟩ hs ∧
      (filterHits (fun d => d == 0) true hs).map place = [(2, 2)] := by
  set o : Options Int := ⟨.localMaxima, 10, 1⟩ with ho
  set s := toSearch oneArith (flaggedPlane (3, 3, 3)) 1 0 o with hs
  obtain ⟨_, ⟨out, hout⟩, hone⟩ := maxima_only (s := s) a0 (G := 3) (x := (2, 2)) (by decide) (by decide) (by decide)
    (by decide) (by decide) fun y _ hne => by
      rw [hs, flagged_weaker _ _ y hne]; decide
  obtain ⟨a, rfl, hax, _⟩ := hone out hout
  obtain ⟨r1, r2, r3⟩ := C83_reports_maxima (s := s) (by decide) hout
  obtain ⟨hs', e, _⟩ := toHits_describes (ar := oneArith) (junk := junk) (cc := cc) (p := flaggedPlane (3, 3, 3))
    (noisePower := 1) (floor := 0) (o := o) (le_refl 6) [a] (by
      intro c hc
      have hx := (r2 _).1 ⟨c, hc, rfl⟩
      exact ⟨hx.1, (r3 c hc).snr, (r3 c hc).value, (r3 c hc).noise, by rw [(r3 c hc).snr]; exact hx.2.1⟩)
  have hrun : GpuHitSearch oneArith junk cc (flaggedPlane (3, 3, 3)) 1 0 o hs' :=
    ⟨3, a0, [a], by decide, hout, e⟩
  refine ⟨hs', hrun, ?_⟩
  rw [C158_maxima_not_filtered rfl hrun, List.filter_eq_self.2, toHits_places e, List.map_singleton, hax]
  intro h hh
  obtain ⟨_, _, r, k1, k2, _⟩ := (C158_hits_describe_cells (le_refl 6) (.inl rfl) hrun).2 h hh
  have hr : r = ⟨5, 1⟩ := List.eq_of_mem_replicate (List.mem_of_getElem? k1)
  rw [k2, hr]
  rfl

end Bliss.Gpu
