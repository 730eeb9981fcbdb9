import Verif.Hit.Props

/-!
# Searching the same plane with other settings (C133)

What a search with one SNR threshold and neighbour distance says about a search of the same plane
with another threshold or distance.
-/

namespace Bliss.Comp

variable {F : Type} [Sub F] [Div F] [LT F] [DecidableLT F] [OfNat F 0] [OfNat F 2]

/-- Two searches of the same plane against the same noise; thresholds and distances may differ. -/
structure SamePlane (s t : Search F) : Prop where
  grid : s.grid = t.grid
  val : s.val = t.val
  floor : s.floor = t.floor
  noise : s.noise = t.noise

/-- **C133, for clusters.** The peak of a cluster of one search, if it is above the threshold of the
other, lies in a cluster of the other, whose peak is not weaker. -/
theorem C133_peak_in_cluster (s t : Search F) (fltMin : F) (hst : SamePlane s t)
    (htrans : ∀ a b c : F, a < b → b < c → a < c) (hirr : ∀ a : F, ¬ a < a)
    (hs : ∀ v : F, s.thr < v → s.thr / 2 < v ∧ fltMin < v)
    (ht : ∀ v : F, t.thr < v → t.thr / 2 < v ∧ fltMin < v) {hits hits' : List (Protohit F)}
    (h : findThresh s fltMin = .ok hits) (h' : findThresh t fltMin = .ok hits') :
    ∀ c ∈ hits, t.thr < c.snr → ∃ c' ∈ hits', c.indexMax ∈ c'.locations ∧ ¬ c'.snr < c.snr := by
  intro c hc habove
  obtain ⟨p1, p2, -, -, -⟩ := C13_peak_is_strongest_partial s fltMin htrans hirr
    (fun v hv => (hs v hv).1) (fun v hv => (hs v hv).2) h hc
  obtain ⟨k1, e1, -, k3, -⟩ := C12_clusters_disjoint_complete_partial s fltMin
  rw [h] at e1; cases e1
  obtain ⟨k1', e1', -, -, k4⟩ := C12_clusters_disjoint_complete_partial t fltMin
  rw [h'] at e1'; cases e1'
  have hsnr : t.snr c.indexMax = c.snr := by
    rw [p2]; unfold Search.snr; rw [hst.val, hst.floor, hst.noise]
  have hg : t.grid.has c.indexMax := hst.grid ▸ (k3 c hc _ p1).1
  have hin := (k4 fun v hv => (ht v hv).1).1 c.indexMax hg (by rw [hsnr]; exact habove)
  obtain ⟨c', hc', hloc⟩ := List.mem_flatMap.1 hin
  refine ⟨c', hc', hloc, ?_⟩
  obtain ⟨-, -, -, -, q⟩ := C13_peak_is_strongest_partial t fltMin htrans hirr
    (fun v hv => (ht v hv).1) (fun v hv => (ht v hv).2) h' hc'
  have := q _ hloc
  unfold Search.snr at hsnr
  rwa [hsnr] at this

/-- One channel and the given values along the drift axis. -/
def column (vals : List Int) (thr : Int) (dist : Int) : Search Int where
  grid := ⟨vals.length, 1⟩
  val := fun c => vals.getD c.1.toNat 0
  rfi := fun _ => (0, 0, 0)
  floor := 0
  noise := fun _ => 1
  thr := thr
  dist := dist

/-- **Clusters are not nested.** A cluster that is found with a higher threshold can be split in two
by a lower one: a cell at exactly the neighbour distance is merged only as long as it is too weak to
start a cluster itself. -/
theorem C133_lower_threshold_splits :
    ∃ hits hits', findThresh (column [12, 0, 30] 20 2) 0 = .ok hits ∧
      findThresh (column [12, 0, 30] 10 2) 0 = .ok hits' ∧
      hits.map (·.locations) = [[(2, 0), (0, 0)]] ∧
      hits'.map (·.locations) = [[(0, 0)], [(2, 0)]] :=
  ⟨_, _, rfl, rfl, rfl, rfl⟩

end Bliss.Comp

namespace Bliss.Hit

open Bliss.Comp (Coord Grid Search Protohit findThresh findMaxima SamePlane)

variable {F D : Type} [Sub F] [Div F] [LT F] [DecidableLT F] [OfNat F 0] [OfNat F 2]

/-- **C133 (part).** Let the same coarse channel be searched for connected components twice, with
thresholds `t`, `t'` and neighbour distances `d`, `d'`. Every hit of the first search that is above
the threshold of the second is matched by a hit of the second that is not weaker. With `t' ≥ t`
read from right to left: raising the threshold finds nothing that was not found, at least as strong,
before; read from left to right: it loses nothing that is above the new threshold. In particular the
strongest SNR does not depend on threshold or distance as long as it is above the threshold. -/
theorem C133_other_settings_partial (ar : Arith F D) (fltMin : F) (junk junk' : Coord → Int)
    (cc : Channel D) (p : Plane F D) (noisePower floor t t' : F) (d d' : Int)
    (htrans : ∀ a b c : F, a < b → b < c → a < c) (hirr : ∀ a : F, ¬ a < a)
    (ht : ∀ v : F, t < v → t / 2 < v ∧ fltMin < v)
    (ht' : ∀ v : F, t' < v → t' / 2 < v ∧ fltMin < v) {hs hs' : List (Hit F D)}
    (h : hitSearch ar fltMin junk cc p noisePower floor ⟨.connectedComponents, t, d⟩ = .ok hs)
    (h' : hitSearch ar fltMin junk' cc p noisePower floor ⟨.connectedComponents, t', d'⟩ = .ok hs') :
    ∀ x ∈ hs, t' < x.snr → ∃ y ∈ hs', ¬ y.snr < x.snr := by
  have hr : p.grid.drifts ≤ p.rates.length := by
    by_contra hc
    unfold hitSearch protohitSearch at h
    rw [if_pos (by omega)] at h
    cases h
  have key : ∀ (junk : Coord → Int) (t : F) (d : Int) (hs : List (Hit F D)),
      (∀ v : F, t < v → t / 2 < v ∧ fltMin < v) →
      hitSearch ar fltMin junk cc p noisePower floor ⟨.connectedComponents, t, d⟩ = .ok hs →
      ∃ cs, findThresh (toSearch ar p noisePower floor ⟨.connectedComponents, t, d⟩) fltMin =
          .ok cs ∧ List.Forall₂ (fun c h => h.snr = c.snr) cs hs := by
    intro junk t d hs ht h
    obtain ⟨cs, e1, e2⟩ := findThresh_sound (toSearch ar p noisePower floor
      ⟨.connectedComponents, t, d⟩) fltMin htrans (fun v hv => (ht v hv).1)
      (fun v hv => (ht v hv).2)
    have e3 : protohitSearch ar fltMin p noisePower floor ⟨.connectedComponents, t, d⟩ = .ok cs := by
      unfold protohitSearch; rw [if_neg (by omega)]; exact e1
    obtain ⟨hs1, f1, f2⟩ := toHits_describes (junk := junk) (cc := cc) hr cs e2
    have f3 : hs1 = hs := by
      unfold hitSearch at h
      rw [e3, Outcome.bind_ok, f1] at h
      exact Outcome.ok.inj h
    subst f3
    refine ⟨cs, e1, ?_⟩
    clear f1 h e1 e3
    induction f2 with
    | nil => exact .nil
    | @cons c x cs hs hd _ ih =>
      refine .cons ?_ (ih fun c hc => e2 c (List.mem_cons_of_mem _ hc))
      obtain ⟨r, g1, g2, g3⟩ := hd.rate
      rw [g3, (e2 c List.mem_cons_self).snr]
      unfold Search.snr
      have hp := hd.peak
      rw [hp.1] at g1
      have hn : (toSearch ar p noisePower floor ⟨.connectedComponents, t, d⟩).noise c.indexMax.1 =
          noiseOf ar noisePower p.steps r := by simp [toSearch, g1]
      rw [hn, hp.1, hp.2]
      rfl
  obtain ⟨cs, a1, a2⟩ := key junk t d hs ht h
  obtain ⟨cs', b1, b2⟩ := key junk' t' d' hs' ht' h'
  intro x hx habove
  obtain ⟨i, hi, rfl⟩ := List.mem_iff_getElem.1 hx
  have hi' : i < cs.length := a2.length_eq ▸ hi
  have hxi : hs[i].snr = cs[i].snr := List.forall₂_iff_get.1 a2 |>.2 i hi' hi
  obtain ⟨c', hc', -, hw⟩ := Comp.C133_peak_in_cluster _ _ fltMin
    (⟨rfl, rfl, rfl, rfl⟩ : SamePlane (toSearch ar p noisePower floor ⟨.connectedComponents, t, d⟩)
      (toSearch ar p noisePower floor ⟨.connectedComponents, t', d'⟩)) htrans hirr ht ht' a1 b1
    cs[i] (List.getElem_mem hi') (by rw [← hxi]; exact habove)
  obtain ⟨j, hj, rfl⟩ := List.mem_iff_getElem.1 hc'
  have hj' : j < hs'.length := b2.length_eq ▸ hj
  have hyj : hs'[j].snr = cs'[j].snr := List.forall₂_iff_get.1 b2 |>.2 j hj hj'
  exact ⟨hs'[j], List.getElem_mem hj', by rw [hyj, hxi]; exact hw⟩

/-- Raising the threshold can raise the number of hits: two peaks with a weaker bridge. The
hypotheses of `C133_other_settings_partial` are met. -/
theorem C133_more_hits :
    ∃ hs hs', hitSearch intArith 0 (fun _ => 0) ⟨1000, 2, 7, 5, 9⟩ (planeEx [30, 8, 40]) 1 0
        ⟨.connectedComponents, 10, 2⟩ = .ok hs ∧
      hitSearch intArith 0 (fun _ => 0) ⟨1000, 2, 7, 5, 9⟩ (planeEx [30, 8, 40]) 1 0
        ⟨.connectedComponents, 20, 2⟩ = .ok hs' ∧
      hs.map (·.snr) = [40] ∧ hs'.map (·.snr) = [30, 40] ∧
      (∀ v : Int, (10 : Int) < v → 10 / 2 < v ∧ 0 < v) ∧
      (∀ v : Int, (20 : Int) < v → 20 / 2 < v ∧ 0 < v) :=
  ⟨_, _, rfl, rfl, rfl, rfl, fun v h => by omega, fun v h => by omega⟩

end Bliss.Hit
