import Verif.Comp.LocalMaxima
import Verif.Comp.Props

/-!
# Properties of the local-maxima search (C17)
-/

set_option linter.unusedSectionVars false

namespace Bliss.Comp

variable {F : Type}
variable [Sub F] [Div F] [LT F] [DecidableLT F] [OfNat F 0] [OfNat F 2]

/-- `x` is an interior strict local maximum above the threshold: every cell within the neighbour
distance is in the grid, and weaker than `x` unless it is `x`. -/
def InteriorMaximum (s : Search F) (x : Coord) : Prop :=
  s.grid.has x ∧ s.thr < s.snr x ∧
    ∀ y, l1 x y ≤ s.dist → s.grid.has y ∧ (y ≠ x → s.snr y < s.snr x)

/-- **C17 is violated for every neighbour distance from 1 up**: whatever the plane, the search
reports nothing. The neighbourhood includes the cell itself, and no value is greater than itself. -/
theorem C17_finds_nothing (s : Search F) (hirr : ∀ a : F, ¬ a < a) (hd : 1 ≤ s.dist) :
    findMaxima s = .ok [] := by
  have h0 : cellAt s.grid 0 = (0, 0) := by simp [cellAt]
  have := maximaScan_none s hirr hd (s.grid.drifts * s.grid.chans) 0 (fun _ => 1) [] (by omega)
  rwa [h0] at this

/-- A 3×3 plane with one strong cell in the middle. -/
def bump : Search Int where
  grid := ⟨3, 3⟩
  val := fun c => if c = (1, 1) then 20 else 0
  rfi := fun _ => (0, 0, 0)
  floor := 0
  noise := fun _ => 1
  thr := 10
  dist := 1

/-- The violation on a concrete plane: the middle cell is an interior strict maximum and is not
reported. -/
theorem C17_misses_maximum : InteriorMaximum bump (1, 1) ∧ findMaxima bump = .ok [] := by
  refine ⟨⟨by decide, by decide, ?_⟩, C17_finds_nothing bump (fun a => Int.lt_irrefl a) (by decide)⟩
  intro y hy
  obtain ⟨a, b⟩ := y
  have h1 : l1 (1, 1) (a, b) ≤ 1 := hy
  unfold l1 at h1
  simp only at h1
  have := neg_abs_le (1 - a)
  have := le_abs_self (1 - a)
  have := neg_abs_le (1 - b)
  have := le_abs_self (1 - b)
  have := abs_nonneg (1 - a)
  have := abs_nonneg (1 - b)
  refine ⟨?_, ?_⟩
  · unfold Grid.has bump
    simp only
    omega
  · intro hne
    have hv : bump.val (a, b) = 0 := if_neg hne
    have h1 : bump.snr (1, 1) = 20 := rfl
    have h2 : bump.snr (a, b) = 0 := by
      unfold Search.snr; rw [hv]; rfl
    rw [h1, h2]; decide

/-- **C17 (what holds).** Without a neighbourhood (`dist ≤ 0`) the search returns; every reported
maximum is a cell of the grid above the threshold with its own SNR, value, noise and RFI counts, its
width and centre are those of the channels between the first ones on each side that no longer fall
or are not above the threshold (`Extent`), no cell is reported twice, and every cell above the threshold is reported unless the cell one channel
up or down at the same drift is stronger.

Missing: the property itself, for `dist ≥ 1` (`C17_finds_nothing`). -/
theorem C17_no_neighbourhood_partial (s : Search F) (hd : s.dist ≤ 0) :
    ∃ hits, findMaxima s = .ok hits ∧
      (∀ h ∈ hits, s.grid.has h.indexMax ∧ s.thr < s.snr h.indexMax ∧
        h.snr = s.snr h.indexMax ∧ h.maxIntegration = s.val h.indexMax ∧
        h.noise = some (s.noise h.indexMax.1) ∧ h.rfi = some (s.rfi h.indexMax) ∧
        ∃ lo hi, Extent s h.indexMax lo hi ∧ h.binwidth = hi - lo ∧
          h.indexCenter = (h.indexMax.1, (hi + lo).tdiv 2)) ∧
      (hits.map (·.indexMax)).Nodup ∧
      ∀ d f : Int, s.grid.has (d, f) → s.thr < s.snr (d, f) →
        (s.grid.has (d, f + 1) → ¬ s.val (d, f) < s.val (d, f + 1)) →
        (s.grid.has (d, f - 1) → ¬ s.val (d, f) < s.val (d, f - 1)) →
        ∃ h ∈ hits, h.indexMax = (d, f) := by
  have h0 : cellAt s.grid 0 = (0, 0) := by simp [cellAt]
  obtain ⟨v, out, h1, h2⟩ := maximaScan_spec s hd (s.grid.drifts * s.grid.chans) 0 (fun _ => 1) []
    (by omega) ⟨by simp, by omega, by simp, by simp⟩
  rw [h0] at h1
  refine ⟨out, h1, ?_, h2.once, ?_⟩
  · intro h hh
    obtain ⟨j, hj, e, h3, h4⟩ := h2.ok h hh
    refine ⟨by rw [e]; exact cellAt_has hj, by rw [e]; exact h3, h4⟩
  · intro d f hg ht hu hl
    obtain ⟨k, hk, e⟩ := has_cellAt hg
    rw [← e] at ht ⊢
    refine h2.found k hk ht ?_
    rw [e]
    rintro (⟨a, b⟩ | ⟨a, b⟩)
    · exact hu a b
    · exact hl a b

/-- A plane that meets the hypotheses: two maxima, a shoulder that is not reported. -/
example : ∃ a b : Protohit Int, findMaxima (line [20, 12, 0, 11] 10 0) = .ok [a, b] ∧
    a.indexMax = (0, 0) ∧ b.indexMax = (0, 3) := ⟨_, _, rfl, rfl, rfl⟩

end Bliss.Comp
