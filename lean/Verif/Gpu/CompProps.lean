import Verif.Gpu.CompLemmas
import Mathlib.Data.Prod.Lex
import Mathlib.Data.Finset.Max
import Mathlib.Order.OrderDual

/-!
# Properties of the component search on the GPU
-/

namespace Bliss.Gpu

open Bliss.Comp

/-! ## Specification -/

section Spec
variable {F : Type} [Sub F] [Div F] [LinearOrder F] [OfNat F 2]

/-- The neighbourhood of a cell for distance `d`: the diamond of radius `d` around it without its
right half of the border (offsets of drift `a` and channel `b` with `-d ≤ b < d` and
`|b| - d ≤ a < d - |b|`). -/
def InHood (d : Int) (x y : Coord) : Prop :=
  -d ≤ y.2 - x.2 ∧ y.2 - x.2 < d ∧ -d + |y.2 - x.2| ≤ y.1 - x.1 ∧ y.1 - x.1 < d - |y.2 - x.2|

/-- A cell the GPU search can report: it is above the threshold, its whole neighbourhood lies in
the plane, and no cell of the neighbourhood is stronger. -/
def IsPeak (s : Search F) (x : Coord) : Prop :=
  s.thr / 2 < s.snr x ∧ s.thr < s.snr x ∧
    ∀ y, InHood s.dist x y → s.grid.has y ∧ s.snr y ≤ s.snr x

/-- `x` is preferred to `y`: higher SNR, or equal SNR and earlier in the plane. -/
def Preferred (s : Search F) (x y : Coord) : Prop :=
  s.snr y < s.snr x ∨ (s.snr x = s.snr y ∧ (x.1 < y.1 ∨ (x.1 = y.1 ∧ x.2 < y.2)))

end Spec

section
variable {F : Type} [Sub F] [Div F] [LinearOrder F] [OfNat F 0] [OfNat F 2]
variable {s : Search F} {G : Nat}

theorem mem_hood_iff {x y : Coord} : y ∈ hood s x ↔ InHood s.dist x y :=
  mem_hood.trans mem_l1Offsets

theorem isPeak_iff {x : Coord} : IsPeak s x ↔ classify s x = .peak := by
  rw [classify_peak]
  simp only [IsPeak, mem_hood_iff]

omit [Sub F] [Div F] [LinearOrder F] [OfNat F 0] [OfNat F 2] in
theorem numel_cell {n : Nat} (hn : n < numel s) : s.grid.has (cellAt s.grid n) :=
  cellAt_has hn

omit [OfNat F 0] in
theorem prefer_iff {n m : Nat} (hn : n < numel s) (hm : m < numel s) :
    Prefer s n m ↔ Preferred s (cellAt s.grid n) (cellAt s.grid m) := by
  have h1 := numel_cell hn
  have h2 := numel_cell hm
  have e1 : lin s.grid (cellAt s.grid n) = n := lin_cellAt
  have e2 : lin s.grid (cellAt s.grid m) = m := lin_cellAt
  unfold Prefer Preferred
  generalize cellAt s.grid n = x at *
  generalize cellAt s.grid m = y at *
  obtain ⟨x1, x2⟩ := x
  obtain ⟨y1, y2⟩ := y
  simp only [lin, Grid.has] at *
  have key : n < m ↔ x1 < y1 ∨ (x1 = y1 ∧ x2 < y2) := by
    have hlt : n < m ↔ x1 * s.grid.chans + x2 < y1 * s.grid.chans + y2 := by
      rw [e1, e2]; exact_mod_cast Iff.rfl
    rw [hlt]
    rcases lt_trichotomy x1 y1 with hlt | rfl | hlt
    · refine iff_of_true ?_ (.inl hlt)
      nlinarith
    · simp
    · refine iff_of_false ?_ (by omega)
      nlinarith
  rw [key]

/-- What one run of the search reports. -/
theorem reports_spec (hd : 2 ≤ s.dist) (hG : 0 < G) {stale : Bool} {out : List (GpuHit F)}
    (h : Reports s G stale out) :
    ∃ (L : List Nat) (lab : Buf Int) (μ : InitMem F), L.Nodup ∧ (∀ n, n ∈ L ↔ Survives s n) ∧
      ((∃ n, n ∈ L) → Labelled s μ lab) ∧
      List.Forall₂ (fun (n : Nat) x =>
        collectOne s lab ⟨n, s.snr (cellAt s.grid n), 0⟩ = .ok x) L out := by
  classical
  obtain ⟨cap, μ, lab, slots, hcap, h1, h2, h3, h4⟩ := h
  have h4' : exportFrom s slots lab (μ.counter - 8).toNat 8 = .ok out := by
    unfold exportAll at h4
    split at h4
    · cases h4
    · exact h4
  by_cases hp : ∃ n, n < numel s ∧ classify s (cellAt s.grid n) = .peak
  · have hi := init_result hG (init_room hG h1 hp) h1
    have hl : Labelled s μ lab := resolve_result hG hi (toward_pos hd) h2
    have hn : (μ.counter - 8).toNat = μ.claims.length := by rw [hi.counter]; omega
    rw [hn] at h4'
    obtain ⟨out', ho, hf⟩ := export_ok (s := s) (slots := slots) (lab := lab) μ.claims 8
      (fun k n hk => merge_survivors hG hi hl h3 hk)
      (fun n hn _ => by
        obtain ⟨x, hx, _⟩ := collect_ok hd (sameSupport hl hl) ((hi.mem n).1 hn).2 0 0
        exact ⟨x, hx⟩)
    rw [ho] at h4'
    cases h4'
    refine ⟨_, lab, μ, hi.nodup.filter _, fun n => ?_, fun _ => hl, hf⟩
    simp only [List.mem_filter, decide_eq_true_eq]
    exact ⟨fun h => h.2, fun h => ⟨(hi.mem n).2 h.1, h⟩⟩
  · obtain ⟨hI, _⟩ := init_all hG h1
    have hnil : μ.claims = [] := by
      cases hc : μ.claims with
      | nil => rfl
      | cons n w => exact absurd ⟨n, hI.peaks n (by simp [hc])⟩ hp
    have hn : (μ.counter - 8).toNat = 0 := by rw [hI.counter, hnil]; simp
    rw [hn] at h4'
    cases h4'
    refine ⟨[], lab, μ, List.nodup_nil, fun n => ⟨by simp, fun h => ?_⟩, by simp, .nil⟩
    exact absurd ⟨n, h.1⟩ hp

/-- The cells reported are those of the surviving peaks. -/
theorem reports_mem (hd : 2 ≤ s.dist) (hG : 0 < G) {stale : Bool} {out : List (GpuHit F)}
    (h : Reports s G stale out) (x : Coord) :
    (∃ a ∈ out, a.indexMax = x) ↔ ∃ n, Survives s n ∧ cellAt s.grid n = x := by
  obtain ⟨L, lab, μ, _, hmem, hl, hf⟩ := reports_spec hd hG h
  constructor
  · rintro ⟨a, ha, rfl⟩
    obtain ⟨i, hi⟩ := List.mem_iff_getElem?.1 ha
    obtain ⟨n, hn⟩ : ∃ n, L[i]? = some n := by
      have := (List.getElem?_eq_some_iff.1 hi).1
      rw [← hf.length_eq] at this
      exact ⟨_, List.getElem?_eq_getElem this⟩
    have hc := List.forall₂_iff_get.1 hf
    have hn' := List.mem_of_getElem? hn
    have hcn : collectOne s lab ⟨n, s.snr (cellAt s.grid n), 0⟩ = .ok a := by
      obtain ⟨h1, rfl⟩ := List.getElem?_eq_some_iff.1 hn
      obtain ⟨h2, rfl⟩ := List.getElem?_eq_some_iff.1 hi
      exact hc.2 i h1 h2
    obtain ⟨y, hy, _, e, _⟩ := collect_ok hd (sameSupport (hl ⟨n, hn'⟩) (hl ⟨n, hn'⟩))
      ((hmem n).1 hn').1.2 0 0
    rw [hy] at hcn
    cases hcn
    exact ⟨n, (hmem n).1 hn', e.symm⟩
  · rintro ⟨n, hn, rfl⟩
    have hn' := (hmem n).2 hn
    obtain ⟨i, hi⟩ := List.mem_iff_getElem?.1 hn'
    obtain ⟨h1, hin⟩ := List.getElem?_eq_some_iff.1 hi
    have h2 : i < out.length := hf.length_eq ▸ h1
    have hc := (List.forall₂_iff_get.1 hf).2 i h1 h2
    simp only [List.get_eq_getElem, hin] at hc
    obtain ⟨y, hy, _, e, _⟩ := collect_ok hd (sameSupport (hl ⟨n, hn'⟩) (hl ⟨n, hn'⟩))
      hn.1.2 0 0
    rw [hy] at hc
    cases hc
    exact ⟨_, List.getElem_mem h2, e⟩

/-- **C77.** Two runs of the search on the same plane report the same protohits, apart from their
order, whatever the number of threads of each run, the order in which the threads of each kernel
take their steps, and whether the reads of the merge are up to date. -/
theorem C77_schedule_independent (hd : 2 ≤ s.dist) {G G' : Nat} (hG : 0 < G) (hG' : 0 < G')
    {stale stale' : Bool} {out out' : List (GpuHit F)}
    (h : Reports s G stale out) (h' : Reports s G' stale' out') : out.Perm out' := by
  obtain ⟨L, lab, μ, hnd, hmem, hl, hf⟩ := reports_spec hd hG h
  obtain ⟨L', lab', μ', hnd', hmem', hl', hf'⟩ := reports_spec hd hG' h'
  have hperm : L'.Perm L :=
    (List.perm_ext_iff_of_nodup hnd' hnd).2 fun n => (hmem' n).trans (hmem n).symm
  -- measure the first run's peaks in the order of the second run
  have hcomp : Relation.Comp List.Perm (List.Forall₂ fun (n : Nat) x =>
      collectOne s lab ⟨n, s.snr (cellAt s.grid n), 0⟩ = .ok x) L' out := ⟨L, hperm, hf⟩
  rw [← List.forall₂_comp_perm_eq_perm_comp_forall₂] at hcomp
  obtain ⟨out2, hf2, hp2⟩ := hcomp
  have : out2 = out' := by
    refine List.ext_getElem (hf2.length_eq.symm.trans hf'.length_eq) fun i h1 h2 => ?_
    have hi : i < L'.length := hf2.length_eq ▸ h1
    have c1 := (List.forall₂_iff_get.1 hf2).2 i hi h1
    have c2 := (List.forall₂_iff_get.1 hf').2 i hi h2
    simp only [List.get_eq_getElem] at c1 c2
    have hm' : L'[i] ∈ L' := List.getElem_mem hi
    have hs := (hmem' _).1 hm'
    obtain ⟨y, e1, e2, _⟩ := collect_ok hd
      (sameSupport (hl ⟨_, (hmem _).2 hs⟩) (hl' ⟨_, hm'⟩)) hs.1.2 0 0
    rw [e1] at c1
    rw [e2] at c2
    exact (Outcome.ok.inj c1).symm.trans (Outcome.ok.inj c2)
  exact (this ▸ hp2).symm

/-- Everything joined to a peak is a peak. -/
theorem joined_peak {r r' : Nat} (hj : Joined s r r') :
    (r < numel s ∧ classify s (cellAt s.grid r) = .peak) ↔
      (r' < numel s ∧ classify s (cellAt s.grid r') = .peak) := by
  induction hj with
  | rel x y h =>
    obtain ⟨_, _, h1, h2, _⟩ := h
    exact iff_of_true h1.is_peak h2.is_peak
  | refl x => exact Iff.rfl
  | symm x y _ ih => exact ih.symm
  | trans x y z _ _ ih ih' => exact ih.trans ih'

omit [OfNat F 0] [OfNat F 2] in
theorem prefer_lex {r r' : Nat} : Prefer s r r' ↔
    toLex (s.snr (cellAt s.grid r'), OrderDual.toDual r') <
      toLex (s.snr (cellAt s.grid r), OrderDual.toDual r) := by
  rw [Prod.Lex.toLex_lt_toLex]
  simp only [Prefer, OrderDual.toDual_lt_toDual]
  exact or_congr Iff.rfl (and_congr eq_comm Iff.rfl)

/-- Every connected group of peaks has exactly one survivor. -/
theorem one_survivor {n : Nat} (hn : n < numel s) (hp : classify s (cellAt s.grid n) = .peak) :
    ∃! r, Survives s r ∧ Joined s n r := by
  classical
  have hne : ((Finset.range (numel s)).filter fun r => Joined s n r).Nonempty :=
    ⟨n, by simpa using ⟨hn, .refl n⟩⟩
  obtain ⟨r, hr, hmax⟩ := Finset.exists_max_image _
    (fun r => toLex (s.snr (cellAt s.grid r), OrderDual.toDual r)) hne
  simp only [Finset.mem_filter, Finset.mem_range] at hr hmax
  refine ⟨r, ⟨⟨(joined_peak hr.2).1 ⟨hn, hp⟩, fun r' hj => ?_⟩, hr.2⟩, fun r' ⟨hs, hj⟩ => ?_⟩
  · have hj' := hr.2.trans _ _ _ hj
    have hle := hmax r' ⟨((joined_peak hj').1 ⟨hn, hp⟩).1, hj'⟩
    rcases hle.lt_or_eq with h | h
    · exact .inr (prefer_lex.2 h)
    · have := congrArg (fun p => OrderDual.ofDual (ofLex p).2) h
      exact .inl (by simpa using this)
  · have hj' : Joined s r' r := hj.symm.trans _ _ _ hr.2
    rcases hs.2 r hj' with h | h
    · exact h.symm
    · have := hmax r' ⟨hs.1.1, hj⟩
      exact absurd (prefer_lex.1 h) (not_lt.2 this)

/-- **C77.** What is reported: every reported protohit sits on a peak and carries its SNR; no cell is
reported twice; and a peak that is preferred to all other peaks is reported. -/
theorem C77_reported_peaks (hd : 2 ≤ s.dist) (hG : 0 < G) {stale : Bool} {out : List (GpuHit F)}
    (h : Reports s G stale out) :
    (out.map (·.indexMax)).Nodup ∧
    (∀ a ∈ out, s.grid.has a.indexMax ∧ IsPeak s a.indexMax ∧ a.snr = s.snr a.indexMax) ∧
    (∀ x, s.grid.has x → IsPeak s x →
      (∀ y, s.grid.has y → IsPeak s y → y = x ∨ Preferred s x y) → ∃ a ∈ out, a.indexMax = x) := by
  obtain ⟨L, lab, μ, hnd, hmem, hl, hf⟩ := reports_spec hd hG h
  have hsnr : ∀ {n : Nat} {a : GpuHit F}, n ∈ L →
      collectOne s lab ⟨n, s.snr (cellAt s.grid n), 0⟩ = .ok a →
      a.indexMax = cellAt s.grid n ∧ a.snr = s.snr (cellAt s.grid n) := by
    intro n a hn hc
    obtain ⟨y, hy, _, e, e'⟩ := collect_ok hd (sameSupport (hl ⟨n, hn⟩) (hl ⟨n, hn⟩))
      ((hmem n).1 hn).1.2 0 0
    rw [hy] at hc
    cases hc
    exact ⟨e, e'⟩
  have hmap : out.map (·.indexMax) = L.map (cellAt s.grid) := by
    refine List.ext_getElem (by simp [hf.length_eq]) fun i h1 h2 => ?_
    simp only [List.length_map] at h1 h2
    have c := (List.forall₂_iff_get.1 hf).2 i h2 h1
    simp only [List.get_eq_getElem] at c
    simp only [List.getElem_map]
    exact (hsnr (List.getElem_mem h2) c).1
  refine ⟨?_, fun a ha => ?_, fun x hx hp hbest => ?_⟩
  · rw [hmap]
    refine (List.nodup_map_iff_inj_on hnd).2 fun a _ b _ hab => ?_
    have := congrArg (lin s.grid) hab
    rw [lin_cellAt, lin_cellAt] at this
    exact_mod_cast this
  · obtain ⟨i, hi, rfl⟩ := List.mem_iff_getElem.1 ha
    have hiL : i < L.length := hf.length_eq ▸ hi
    have c := (List.forall₂_iff_get.1 hf).2 i hiL hi
    simp only [List.get_eq_getElem] at c
    have hm : L[i] ∈ L := List.getElem_mem hiL
    obtain ⟨e1, e2⟩ := hsnr hm c
    rw [e1, e2]
    exact ⟨numel_cell ((hmem _).1 hm).1.1, isPeak_iff.2 ((hmem _).1 hm).1.2, rfl⟩
  · obtain ⟨n, hn, rfl⟩ := has_cellAt hx
    refine (reports_mem hd hG h _).2 ⟨n, ⟨⟨hn, isPeak_iff.1 hp⟩, fun r' hj => ?_⟩, rfl⟩
    obtain ⟨h1, h2⟩ := (joined_peak hj).1 ⟨hn, isPeak_iff.1 hp⟩
    rcases hbest _ (numel_cell h1) (isPeak_iff.2 h2) with he | hb
    · have := congrArg (lin s.grid) he
      rw [lin_cellAt, lin_cellAt] at this
      exact .inl (by exact_mod_cast this)
    · exact .inr ((prefer_iff hn h1).2 hb)

/-- **C77.** Of every connected group of peaks exactly one cell is reported, the preferred one. -/
theorem C77_one_per_component (hd : 2 ≤ s.dist) (hG : 0 < G) {stale : Bool} {out : List (GpuHit F)}
    (h : Reports s G stale out) {n : Nat} (hn : n < numel s) (hp : IsPeak s (cellAt s.grid n)) :
    ∃! r, Joined s n r ∧ ∃ a ∈ out, a.indexMax = cellAt s.grid r := by
  obtain ⟨r, ⟨hs, hj⟩, hu⟩ := one_survivor hn (isPeak_iff.1 hp)
  refine ⟨r, ⟨hj, (reports_mem hd hG h _).2 ⟨r, hs, rfl⟩⟩, fun r' ⟨hj', ha⟩ => hu r' ⟨?_, hj'⟩⟩
  obtain ⟨m, hm, e⟩ := (reports_mem hd hG h _).1 ha
  have := congrArg (lin s.grid) e
  rw [lin_cellAt, lin_cellAt] at this
  have e' : m = r' := by exact_mod_cast this
  exact e' ▸ hm

/-! ## Termination and memory safety -/

/-- **C78.** No schedule runs for ever: from the states in which the kernels are launched there is no
infinite sequence of steps, whichever threads take them.

Missing: distances below 2 and planes with more peaks than room (see C79), and reads of the merge
that stay out of date (a thread that never sees a field set by another may retry for ever). -/
theorem C78_kernels_terminate_partial (hd : 2 ≤ s.dist) (hG : 0 < G) {cap : Int}
    (hroom : Roomy s cap) :
    Terminates (InitStep s cap) (initThreads s G) (initMem s cap) ∧
    ∀ μ, Completes (InitStep s cap) (initThreads s G) (initMem s cap) μ →
      Terminates (ResolveStep cap) (resolveThreads s G) μ.labels ∧
      ∀ lab, Completes (ResolveStep cap) (resolveThreads s G) μ.labels lab →
        Terminates (MergeStep false) (mergeInit (mergeWork s lab G)) μ.slots := by
  refine ⟨init_terminates hG, fun μ h1 => ?_⟩
  have hi := init_result hG hroom h1
  refine ⟨resolve_terminates hG hi (toward_pos hd), fun lab h2 => ?_⟩
  exact merge_terminates (merge_ready hG hi (resolve_result hG hi (toward_pos hd) h2)) inUse_finite

/-- **C79 (what holds).** With a neighbourhood distance of at least 2 and room for 8 protohits more than there are
peaks, no schedule has undefined behaviour, and the search can return.

Missing: the property without these conditions, see `C79_overflow`, `C79_distance_zero` and
`C79_distance_one`. -/
theorem C79_memory_safe_partial (hd : 2 ≤ s.dist) (hG : 0 < G) {cap : Int}
    (hcap : capacity s = .ok cap) (hroom : Roomy s cap) (stale : Bool) :
    ¬ CanFault s G stale ∧ ∃ out, Reports s G stale out := by
  have h8 : 8 ≤ cap := by unfold Roomy at hroom; omega
  -- the export of the result of any complete execution succeeds
  have hexp : ∀ μ, Initialised s cap μ → ∀ lab, Labelled s μ lab → ∀ slots,
      Completes (MergeStep stale) (mergeInit (mergeWork s lab G)) μ.slots slots →
      ∃ out, exportAll s cap slots lab (μ.counter - 8).toNat = .ok out := by
    intro μ hi lab hl slots h3
    have hn : (μ.counter - 8).toNat = μ.claims.length := by rw [hi.counter]; omega
    obtain ⟨out, ho, _⟩ := export_ok (s := s) (slots := slots) (lab := lab) μ.claims 8
      (fun k n hk => merge_survivors hG hi hl h3 hk)
      (fun n hn _ => by
        obtain ⟨x, hx, _⟩ := collect_ok hd (sameSupport hl hl) ((hi.mem n).1 hn).2 0 0
        exact ⟨x, hx⟩)
    exact ⟨out, by rw [exportAll, if_neg (by omega), hn, ho]⟩
  constructor
  · rintro (h | ⟨cap', hc', h⟩)
    · rw [hcap] at h; cases h
    · rw [hcap] at hc'
      obtain rfl := Outcome.ok.inj hc'
      rcases h with h | ⟨μ, h1, h⟩
      · obtain ⟨_, _, h, _⟩ := init_reach hG hroom h
        cases h
      have hi := init_result hG hroom h1
      rcases h with h | ⟨lab, h2, h⟩
      · obtain ⟨_, _, h, _⟩ := resolve_reach hG hi (toward_pos hd) h
        cases h
      have hl : Labelled s μ lab := resolve_result hG hi (toward_pos hd) h2
      rcases h with h | ⟨slots, h3, h⟩
      · obtain ⟨_, _, h, _⟩ := merge_reach (merge_ready hG hi hl) h
        cases h
      · obtain ⟨out, ho⟩ := hexp μ hi lab hl slots h3
        rw [ho] at h; cases h
  · obtain ⟨μ, h1⟩ := init_completes hG hroom
    have hi := init_result hG hroom h1
    obtain ⟨lab, h2⟩ := resolve_completes hG hi (toward_pos hd)
    have hl : Labelled s μ lab := resolve_result hG hi (toward_pos hd) h2
    obtain ⟨slots, h3⟩ := merge_completes (merge_ready hG hi hl) inUse_finite stale
    obtain ⟨out, ho⟩ := hexp μ hi lab hl slots h3
    exact ⟨out, cap, μ, lab, slots, hcap, h1, h2, h3, ho⟩

/-- **C79 (violation).** With more peaks than the capacity of the protohit array leaves room for, the
search cannot return, and some schedule stores outside the array. -/
theorem C79_overflow (hG : 0 < G) {cap : Int} (hcap : capacity s = .ok cap)
    (hp : ∃ x, s.grid.has x ∧ IsPeak s x) (hroom : ¬ Roomy s cap) (stale : Bool) :
    CanFault s G stale ∧ ¬ ∃ out, Reports s G stale out := by
  obtain ⟨x, hx, hpx⟩ := hp
  obtain ⟨n, hn, rfl⟩ := has_cellAt hx
  obtain ⟨h1, h2⟩ := init_overflow (cap := cap) hG ⟨n, hn, isPeak_iff.1 hpx⟩ hroom
  refine ⟨.inr ⟨cap, hcap, .inl h2⟩, ?_⟩
  rintro ⟨out, cap', μ, lab, slots, hc, h3, _⟩
  rw [hcap] at hc
  obtain rfl := Outcome.ok.inj hc
  exact h1 ⟨μ, h3⟩

/-- **C79 (violation).** A neighbourhood distance of 0 divides by zero. -/
theorem C79_distance_zero (h : s.dist = 0) (stale : Bool) : CanFault s G stale :=
  .inl (by simp [capacity, h])

/-- **C80.** No protohit is reported on a cell whose neighbourhood leaves the plane: cells within `dist` drifts of the first
one, or within `dist - 1` drifts of the last one or within `dist - 1` channels of either side. -/
theorem C80_border_never_reported (hd : 2 ≤ s.dist) (hG : 0 < G) {stale : Bool}
    {out : List (GpuHit F)} (h : Reports s G stale out) :
    ∀ a ∈ out, s.dist ≤ a.indexMax.1 ∧ a.indexMax.1 + s.dist ≤ s.grid.drifts ∧
      s.dist - 1 ≤ a.indexMax.2 ∧ a.indexMax.2 + s.dist ≤ s.grid.chans := by
  intro a ha
  obtain ⟨_, ⟨_, _, hall⟩, _⟩ := (C77_reported_peaks hd hG h).2.1 a ha
  generalize a.indexMax = x at hall
  have e : |s.dist - 1| = s.dist - 1 := abs_of_nonneg (by omega)
  have h1 := (hall (x.1 - s.dist, x.2) (by simp [InHood]; omega)).1
  have h2 := (hall (x.1 + (s.dist - 1), x.2) (by simp [InHood]; omega)).1
  have h3 := (hall (x.1, x.2 - (s.dist - 1)) (by
    simp only [InHood, sub_self, show x.2 - (s.dist - 1) - x.2 = -(s.dist - 1) by omega, abs_neg, e]
    omega)).1
  have h4 := (hall (x.1, x.2 + (s.dist - 1)) (by
    simp only [InHood, sub_self, show x.2 + (s.dist - 1) - x.2 = s.dist - 1 by omega, e]
    omega)).1
  simp only [Grid.has] at h1 h2 h3 h4
  omega

end

/-! ## Concrete planes -/

/-- A 6×8 plane with SNR 30 at (2, 2), 20 at (2, 3) and 25 at (3, 5), nothing elsewhere. -/
def twoBumps : Search Int where
  grid := ⟨6, 8⟩
  val := fun c => if c = (2, 2) then 30 else if c = (2, 3) then 20 else if c = (3, 5) then 25 else 0
  rfi := fun _ => (1, 2, 3)
  floor := 0
  noise := fun _ => 1
  thr := 10
  dist := 2

theorem twoBumps_room : capacity twoBumps = .ok 12 ∧ Roomy twoBumps 12 := by
  constructor
  · rfl
  · unfold Roomy; decide +kernel

/-- The search on this plane returns under every schedule and reports the cell (2, 2). -/
example : ¬ CanFault twoBumps 3 true ∧ ∃ out, Reports twoBumps 3 true out ∧
    ∃ a ∈ out, a.indexMax = (2, 2) := by
  obtain ⟨h1, out, h2⟩ := C79_memory_safe_partial (s := twoBumps) (by decide) (G := 3) (by decide)
    twoBumps_room.1 twoBumps_room.2 true
  refine ⟨h1, out, h2, (C77_reported_peaks (by decide) (by decide) h2).2.2 (2, 2) (by decide) ?_ ?_⟩
  · exact isPeak_iff.2 (by decide +kernel)
  · intro y hy _
    by_cases e : y = (2, 2)
    · exact .inl e
    · refine .inr (.inl ?_)
      have h30 : twoBumps.snr (2, 2) = 30 := rfl
      rw [h30]
      unfold Search.snr twoBumps
      simp only [e, if_false]
      split
      · decide
      · split <;> decide

/-- The hypotheses of C78 hold for this plane. -/
example : Terminates (InitStep twoBumps 12) (initThreads twoBumps 3) (initMem twoBumps 12) :=
  (C78_kernels_terminate_partial (s := twoBumps) (by decide) (by decide) twoBumps_room.2).1

/-- A flat 8×8 plane above the threshold. -/
def plateau : Search Int where
  grid := ⟨8, 8⟩
  val := fun _ => 20
  rfi := fun _ => (0, 0, 0)
  floor := 0
  noise := fun _ => 1
  thr := 10
  dist := 2

/-- **C79 (violation).** A flat plane above the threshold overflows the protohit array. -/
theorem C79_plateau_overflow (G : Nat) (hG : 0 < G) (stale : Bool) :
    CanFault plateau G stale ∧ ¬ ∃ out, Reports plateau G stale out :=
  C79_overflow hG (cap := 16) rfl ⟨(3, 3), by decide, isPeak_iff.2 (by decide +kernel)⟩
    (by unfold Roomy; decide +kernel) stale

/-- A 6×8 plane whose only strong cell is on the first drift. -/
def edgeBump : Search Int where
  grid := ⟨6, 8⟩
  val := fun c => if c = (0, 3) then 30 else 0
  rfi := fun _ => (0, 0, 0)
  floor := 0
  noise := fun _ => 1
  thr := 10
  dist := 2

/-- **C80 (violation).** On the same plane the CPU search reports a component and the GPU search
reports none. -/
theorem C80_edge_disagreement :
    (∃ p, findThresh edgeBump 0 = .ok [p] ∧ p.indexMax = (0, 3)) ∧
    (∃ out, Reports edgeBump 3 true out) ∧
    ∀ G stale out, 0 < G → Reports edgeBump G stale out → out = [] := by
  have hnone : ∀ n, n < numel edgeBump → classify edgeBump (cellAt edgeBump.grid n) ≠ .peak := by
    decide +kernel
  refine ⟨?_, ?_, fun G stale out hG h => ?_⟩
  · exact ⟨_, rfl, rfl⟩
  · exact (C79_memory_safe_partial (s := edgeBump) (by decide) (G := 3) (by decide)
      (cap := 12) rfl (by unfold Roomy; decide +kernel) true).2
  · cases out with
    | nil => rfl
    | cons a w =>
      obtain ⟨h1, h2, _⟩ := (C77_reported_peaks (by decide) hG h).2.1 a (by simp)
      obtain ⟨n, hn, e⟩ := has_cellAt h1
      exact absurd (isPeak_iff.1 (e ▸ h2)) (hnone n hn)

/-- A 2×4 plane, neighbourhood distance 1, with SNR 30 at (0, 0) and 20 at (1, 0). -/
def cornerOne : Search Int where
  grid := ⟨2, 4⟩
  val := fun c => if c = (0, 0) then 30 else if c = (1, 0) then 20 else 0
  rfi := fun _ => (0, 0, 0)
  floor := 0
  noise := fun _ => 1
  thr := 10
  dist := 1

/-- A single thread of the second kernel keeps labels that are not pointers. -/
theorem resolve_keeps {cap : Int} {lab : Buf Int} (w : List Nat)
    (h : ∀ n ∈ w, ∃ c, lab (n : Int) = some c ∧ ¬ (8 ≤ c ∧ cap < c)) (ls : Fin 1 → RState)
    (hl : ls = fun _ => rnext w) :
    Exec (ResolveStep cap) ls lab (.ok (fun _ => .done, lab)) := by
  induction w generalizing ls with
  | nil => subst hl; exact .stop _ _
  | cons n w ih =>
    subst hl
    obtain ⟨c, h1, h2⟩ := h n (by simp)
    refine .step 0 (.keep h1 h2) (ih (fun m hm => h m (by simp [hm])) _ ?_)
    funext i
    rw [Subsingleton.elim i 0, Function.update_self]

/-- **C79 (violation).** With a neighbourhood distance of 1 a cell that follows the first cell of the
plane gets a label that is not resolved, and the merge reads past the protohit array. -/
theorem C79_distance_one (stale : Bool) : CanFault cornerOne 1 stale := by
  have hroom : Roomy cornerOne 8 := by unfold Roomy; decide +kernel
  obtain ⟨μ, h1⟩ := init_completes (s := cornerOne) (cap := 8) (G := 1) (by decide) hroom
  have hi := init_result (by decide) hroom h1
  have hlab : ∀ n : Nat, n < 8 → μ.labels n = some (if n = 4 then 8 else 0) := by
    intro n hn
    by_cases h4 : n = 4
    · subst h4
      exact hi.toward 4 0 (by decide) (by decide +kernel)
    · rw [if_neg h4]
      refine hi.skip n hn ?_
      have : ∀ n : Nat, n < 8 → n ≠ 4 → classify cornerOne (cellAt cornerOne.grid n) = .skip := by
        decide +kernel
      exact this n hn h4
  have h2 : Completes (ResolveStep 8) (resolveThreads cornerOne 1) μ.labels μ.labels := by
    refine ⟨fun _ => .done, resolve_keeps (gridStride 1 (numel cornerOne) 0) (fun n hn => ?_) _ ?_,
      fun _ s r h => by cases h⟩
    · have hn8 : n < 8 := ((mem_gridStride (by decide)).1 hn).1
      refine ⟨_, hlab n hn8, ?_⟩
      split <;> omega
    · funext i
      rw [Subsingleton.elim i 0]; rfl
  refine .inr ⟨8, rfl, .inr ⟨μ, h1, .inr ⟨μ.labels, h2, .inl (.fault 0 ?_)⟩⟩⟩
  have hslot : μ.slots 8 = none := (init_all (by decide) h1).1.outside 8 (.inr (le_refl _))
  -- the only cell with a label is the one at position 4
  have hat : ∀ n : Nat, n < 8 → labelAt μ.labels n = if n = 4 then 8 else 0 := fun n hn => by
    rw [labelAt, hlab n hn, Option.getD_some]
  have hw : ∃ qs, mergeWork cornerOne μ.labels 1 0 = [(8, qs)] := by
    have hg : gridStride 1 (numel cornerOne) ((0 : Fin 1) : Nat) = [0, 1, 2, 3, 4, 5, 6, 7] := by
      decide +kernel
    refine ⟨((mergeHood cornerOne (cellAt cornerOne.grid 4)).map fun y =>
        labelAt μ.labels (lin cornerOne.grid y)).filter fun q => decide (8 ≤ q), ?_⟩
    unfold mergeWork
    rw [hg]
    simp only [List.filterMap_cons, List.filterMap_nil, hat 0 (by omega), hat 1 (by omega),
      hat 2 (by omega), hat 3 (by omega), hat 4 (by omega), hat 5 (by omega), hat 6 (by omega),
      hat 7 (by omega)]
    rfl
  obtain ⟨qs, hw⟩ := hw
  rw [mergeInit, hw]
  exact .chaseBad hslot

end Bliss.Gpu
