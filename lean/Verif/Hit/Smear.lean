import Verif.Hit.Recover
import Mathlib.Analysis.SpecialFunctions.Sqrt
import Mathlib.Algebra.BigOperators.Field

/-!
# Tones that drift several channels per time step (C155)

With the option `desmear` a drift of `d` channels over `T` time steps is integrated over a window of
`|d| / (T - 1)` channels, rounded, at every time step. A tone that drifts this fast spreads its power over
as many channels while one spectrum is taken.
-/

namespace Bliss.Hit

open Bliss.Comp (Coord Grid Protohit Search findThresh)
open Bliss.Drift Bliss.Float

/-! ## Specification -/

/-- The window of `w` channels that starts at channel `a` and extends in the direction of the drift. -/
def InWindow (d : Int) (w : Nat) (a c : Int) : Prop :=
  if 0 ≤ d then a ≤ c ∧ c < a + w else a - w < c ∧ c ≤ a

instance (d : Int) (w : Nat) (a c : Int) : Decidable (InWindow d w a c) := by
  unfold InWindow
  infer_instance

/-- `w` is the number of channels the tone drifts by in one time step, to the nearest whole number, and
at least 1; it is nowhere within rounding error of a tie. -/
structure ChannelsPerStep (T : Nat) (d : Int) (w : Nat) : Prop where
  pos : 1 ≤ w
  near : w = 1 ∧ |d| ≤ (T : Int) - 1 ∨ |(w : ℚ) - |(d : ℚ)| / ((T : ℚ) - 1)| < 1 / 2 - |(d : ℚ)| * 2 ^ (-23 : ℤ)

/-- A tone spread evenly over `w` channels from `ch t` on: power `p t`, above `floor`, in these channels;
at most `floor` in all others. -/
structure SmearedTone {F : Type} [LE F] [LT F] (N T : Nat) (grid : Nat → Int → F) (d : Int) (w : Nat)
    (ch : Nat → Int) (floor : F) (p : Nat → F) : Prop where
  inside : ∀ t < T, ∀ c : Int, 0 ≤ c → c < N → InWindow d w (ch t) c → grid t c = p t
  outside : ∀ t < T, ∀ c : Int, 0 ≤ c → c < N → ¬ InWindow d w (ch t) c → grid t c ≤ floor
  strong : ∀ t < T, floor < p t

/-- The noise of lines averaged over `k` channels falls with `k`, but more slowly than `1 / k`. -/
def NoiseFalls {F : Type} [Field F] [LinearOrder F] (n : Int → F) (most : Int) : Prop :=
  ∀ a b : Int, 1 ≤ a → a < b → b ≤ most → n b < n a ∧ a * n a < b * n b

/-- The fall of the noise from `a` to `b` channels and the growth of `k` times the noise are in proportion,
with a factor of at most `most / b`. (For the inverse square root the factor is `√(b / a) / b`.) -/
def NoiseSteady {F : Type} [Field F] [LinearOrder F] (n : Int → F) (most : Int) : Prop :=
  ∀ a b : Int, 1 ≤ a → a < b → b ≤ most → b * (n a - n b) ≤ most * (b * n b - a * n a)

/-! ## Proofs -/

section
variable {F : Type} [Field F] [LinearOrder F] [IsStrictOrderedRing F]

/-- What bin `k` of time `t` contributes to a cell. -/
def binContribution (N : Nat) (up : Bool) (span : Int) (off : Nat → Int) (grid : Nat → Int → F)
    (c : Int) (t k : Nat) : F :=
  match pathChannel N up span (off t) k c with
  | some ch => grid t ch
  | none => 0

omit [LinearOrder F] [IsStrictOrderedRing F] in
theorem pathSum_bins (N : Nat) (up : Bool) (span : Int) (off : Nat → Int) (grid : Nat → Int → F)
    (c : Int) (T w : Nat) (D : Int) :
    pathSum grid D (path N T up span w off c) =
      ∑ t ∈ Finset.range T, ∑ k ∈ Finset.range w, binContribution N up span off grid c t k / D := by
  have inner : ∀ (t : Nat) (w : Nat) (x : F),
      (((List.range w).filterMap fun k => (pathChannel N up span (off t) k c).map fun ch => (t, ch)).foldl
        (fun acc s => acc + grid s.1 s.2 / (D : F)) x) =
      x + ∑ k ∈ Finset.range w, binContribution N up span off grid c t k / D := by
    intro t w x
    induction w with
    | zero => simp
    | succ w ih =>
      rw [List.range_succ, List.filterMap_append, List.foldl_append, ih, Finset.sum_range_succ]
      unfold binContribution
      cases h : pathChannel N up span (off t) w c with
      | none => simp [h]
      | some ch => simp [h, add_assoc]
  induction T with
  | zero => simp [path, pathSum]
  | succ T ih =>
    rw [Finset.sum_range_succ, ← ih]
    unfold pathSum path
    rw [List.range_succ (n := T), List.flatMap_append, List.foldl_append]
    simp only [List.flatMap_cons, List.flatMap_nil, List.append_nil]
    rw [inner]

/-- Lower end of a window. -/
def low (d : Int) (w : Nat) (a : Int) : Int := if 0 ≤ d then a else a - w + 1

theorem inWindow_iff (d : Int) (w : Nat) (a c : Int) :
    InWindow d w a c ↔ low d w a ≤ c ∧ c < low d w a + w := by
  unfold InWindow low
  split <;> omega

/-- Channel of bin `k`. -/
def binChannel (d : Int) (x : Int) (k : Nat) : Int := if 0 ≤ d then x + k else x - k

/-- Number of bins of a window of `D` channels that lie in the tone. -/
def overlap (d : Int) (w : Nat) (a : Int) (d' : Int) (D : Nat) (x : Int) : Nat :=
  ((Finset.range D).filter fun k => InWindow d w a (binChannel d' x k)).card

theorem overlap_le_bins (d : Int) (w : Nat) (a d' : Int) (D : Nat) (x : Int) : overlap d w a d' D x ≤ D := by
  unfold overlap
  exact (Finset.card_filter_le _ _).trans (by rw [Finset.card_range])

theorem overlap_le_width (d : Int) (w : Nat) (a d' : Int) (D : Nat) (x : Int) : overlap d w a d' D x ≤ w := by
  unfold overlap
  have h : ((Finset.range D).filter fun k => InWindow d w a (binChannel d' x k)).card ≤
      (Finset.range w).card := by
    refine Finset.card_le_card_of_injOn (fun k => (binChannel d' x k - low d w a).toNat) ?_ ?_
    · intro k hk
      rw [Finset.mem_coe, Finset.mem_filter, inWindow_iff] at hk
      rw [Finset.mem_coe, Finset.mem_range]
      dsimp only
      omega
    · intro k hk l hl e
      rw [Finset.mem_coe, Finset.mem_filter, inWindow_iff] at hk hl
      dsimp only at e
      have : binChannel d' x k = binChannel d' x l := by omega
      unfold binChannel at this
      split at this <;> omega
  rwa [Finset.card_range] at h

theorem overlap_full {d : Int} {w : Nat} {a d' x : Int} (hw : 1 ≤ w) (h : overlap d w a d' w x = w) :
    low d w a = low d' w x := by
  unfold overlap at h
  have hall : ∀ k < w, InWindow d w a (binChannel d' x k) := by
    have e : (Finset.range w).filter (fun k => InWindow d w a (binChannel d' x k)) = Finset.range w :=
      Finset.eq_of_subset_of_card_le (Finset.filter_subset _ _) (by rw [h, Finset.card_range])
    intro k hk
    have := Finset.mem_range.2 hk
    rw [← e, Finset.mem_filter] at this
    exact this.2
  have h0 := hall 0 (by omega)
  have h1 := hall (w - 1) (by omega)
  rw [inWindow_iff] at h0 h1
  have : low d' w x = if 0 ≤ d' then x else x - w + 1 := rfl
  unfold binChannel at h0 h1
  rw [this]
  split_ifs at h0 h1 ⊢ <;> omega

/-- One bin. -/
theorem bin_le {N T : Nat} {grid : Nat → Int → F} {d : Int} {w : Nat} {ch : Nat → Int} {floor : F}
    {p : Nat → F} (htone : SmearedTone N T grid d w ch floor p) (hfl : 0 ≤ floor) {d' : Int} {ε : ℚ}
    {off : Nat → Int} (hs : StraightPath d' T ε off) {t : Nat} (ht : t < T) {c : Int} (h0 : 0 ≤ c)
    (hc : c < N) (k : Nat) :
    binContribution N (decide (0 ≤ d')) d' off grid c t k ≤
      floor + if InWindow d w (ch t) (binChannel d' (c + off t) k) then p t - floor else 0 := by
  have hq := sub_pos.2 (htone.strong t ht)
  have hin := hs.inside t ht
  unfold binContribution
  cases hx : pathChannel N (decide (0 ≤ d')) d' (off t) k c with
  | none =>
    dsimp only
    split
    · linarith
    · linarith
  | some y =>
    dsimp only
    obtain ⟨y1, y2, y3⟩ : y = binChannel d' (c + off t) k ∧ 0 ≤ y ∧ y < N := by
      unfold pathChannel at hx
      unfold binChannel
      by_cases hd : 0 ≤ d'
      · simp only [hd, decide_true, if_true] at hx ⊢
        rw [min_eq_left hd, max_eq_right hd] at hin
        split at hx
        · have := Option.some.inj hx; omega
        · cases hx
      · simp only [hd, decide_false, Bool.false_eq_true, if_false] at hx ⊢
        rw [min_eq_right (by omega), max_eq_left (by omega)] at hin
        split at hx
        · have := Option.some.inj hx; omega
        · cases hx
    rw [← y1]
    split
    · next h => rw [htone.inside t ht y y2 y3 h]; linarith
    · next h => rw [add_zero]; exact htone.outside t ht y y2 y3 h

theorem bins_le {N T : Nat} {grid : Nat → Int → F} {d : Int} {w : Nat} {ch : Nat → Int} {floor : F}
    {p : Nat → F} (htone : SmearedTone N T grid d w ch floor p) (hfl : 0 ≤ floor) {d' : Int} {ε : ℚ}
    {off : Nat → Int} (hs : StraightPath d' T ε off) {t : Nat} (ht : t < T) {c : Int} (h0 : 0 ≤ c)
    (hc : c < N) (D : Nat) :
    ∑ k ∈ Finset.range D, binContribution N (decide (0 ≤ d')) d' off grid c t k ≤
      D * floor + overlap d w (ch t) d' D (c + off t) * (p t - floor) := by
  refine (Finset.sum_le_sum fun k _ => bin_le htone hfl hs ht h0 hc k).trans ?_
  rw [Finset.sum_add_distrib, Finset.sum_const, Finset.card_range, nsmul_eq_mul, ← Finset.sum_filter,
    Finset.sum_const, nsmul_eq_mul]
  exact le_rfl

/-- The tone's own cell. -/
theorem bins_own {N T : Nat} {grid : Nat → Int → F} {d : Int} {w : Nat} {ch : Nat → Int} {floor : F}
    {p : Nat → F} (htone : SmearedTone N T grid d w ch floor p) {ε : ℚ} {off : Nat → Int}
    (hs : StraightPath d T ε off) {c₀ : Int} (hch : ∀ t < T, ch t = c₀ + off t)
    (h0 : 0 ≤ c₀) (hN : c₀ < N) (hb : ∀ t < T, ∀ c : Int, InWindow d w (ch t) c → 0 ≤ c ∧ c < N)
    (hstop : 0 ≤ c₀ + d) {t : Nat} (ht : t < T) :
    ∑ k ∈ Finset.range w, binContribution N (decide (0 ≤ d)) d off grid c₀ t k = w * p t := by
  rw [show (w : F) * p t = ∑ _k ∈ Finset.range w, p t by simp]
  refine Finset.sum_congr rfl fun k hk => ?_
  rw [Finset.mem_range] at hk
  have hwin : InWindow d w (ch t) (binChannel d (ch t) k) := by
    unfold InWindow binChannel
    split <;> omega
  obtain ⟨b1, b2⟩ := hb t ht _ hwin
  have : pathChannel N (decide (0 ≤ d)) d (off t) k c₀ = some (binChannel d (ch t) k) := by
    rw [hch t ht] at b1 b2 ⊢
    unfold pathChannel
    unfold binChannel at b1 b2 ⊢
    by_cases hd : 0 ≤ d
    · simp only [hd, decide_true, if_true] at b1 b2 ⊢
      rw [if_pos (by omega)]
    · simp only [hd, decide_false, Bool.false_eq_true, if_false] at b1 b2 ⊢
      rw [if_pos ⟨by omega, by omega⟩]
  unfold binContribution
  rw [this]
  exact htone.inside t ht _ b1 b2 hwin

end

/-- The number of desmear bins is bounded by the channels per time step. -/
theorem rate_bins_le {R24 : Rounding 24} {hz : Fl → Fl} {T : Nat} {ro : RateOptions}
    {rates : List (Rate Fl)} (hc : computeDrifts R24 hz T ro = .ok rates) (hT : 2 ≤ T)
    (hT' : (T : Int) - 1 ≤ 2 ^ 24) {i : Nat} {r : Rate Fl} (hr : rates[i]? = some r)
    (hsmall : |ro.low + i * ro.step| ≤ 2 ^ 24) {most : Int} (h1 : 1 ≤ most) (hm : most ≤ 2 ^ 24)
    (hle : |ro.low + i * ro.step| ≤ most * ((T : Int) - 1)) :
    1 ≤ r.desmear ∧ r.desmear ≤ most := by
  have hmk : mkRate R24 hz T ro i = .ok r := by
    unfold computeDrifts at hc
    split at hc
    · cases hc
    dsimp only at hc
    split at hc
    · cases hc
    obtain ⟨h2, h3⟩ := mkRates_inv hc
    have hi : i < rates.length := by
      rw [List.getElem?_eq_some_iff] at hr; exact hr.1
    obtain ⟨r', h4, h5⟩ := h3 i (by omega)
    rw [hr] at h4
    obtain rfl := Option.some.inj h4
    exact h5
  obtain ⟨_, _, m3, m4, m5⟩ := mkRate_inv hmk
  rw [slope_eq R24 hsmall hT hT'] at m3
  rw [m3] at m5
  generalize ro.low + (i : Int) * ro.step = d at *
  rw [show most = max 1 most from (max_eq_right h1).symm]
  refine desmearBins_le m5 ?_
  have hn : (1 : ℚ) ≤ (T : ℚ) - 1 := by
    have : (2 : ℚ) ≤ T := by exact_mod_cast hT
    linarith
  have hq : |(d : ℚ) / ((T : ℚ) - 1)| ≤ (most : ℚ) := by
    rw [abs_div, abs_of_pos (show (0 : ℚ) < (T : ℚ) - 1 by linarith), div_le_iff₀ (by linarith)]
    have : ((|d| : Int) : ℚ) ≤ ((most * ((T : Int) - 1) : Int) : ℚ) := by exact_mod_cast hle
    push_cast at this
    exact this
  rw [abs_le] at hq ⊢
  have u1 := R24.mono _ _ hq.2
  have u2 := R24.mono _ _ hq.1
  have e1 := R24.int most (by rw [abs_of_pos (by omega)]; exact hm)
  have e2 := R24.int (-most) (by rw [abs_neg, abs_of_pos (by omega)]; exact hm)
  rw [e1] at u1
  rw [Int.cast_neg] at e2
  rw [e2] at u2
  exact ⟨u2, u1⟩

/-- The number of desmear bins of a drift. -/
theorem rate_bins {R24 : Rounding 24} {hz : Fl → Fl} {T : Nat} {ro : RateOptions}
    {rates : List (Rate Fl)} (hc : computeDrifts R24 hz T ro = .ok rates) (hdes : ro.desmear = true) (hT : 2 ≤ T)
    (hT' : (T : Int) - 1 ≤ 2 ^ 24) {i : Nat} {r : Rate Fl} (hr : rates[i]? = some r)
    (hsmall : |ro.low + i * ro.step| ≤ 2 ^ 24) {w : Nat} (hw : ChannelsPerStep T (ro.low + i * ro.step) w) :
    r.desmear = w := by
  rcases hw.near with ⟨h1, h2⟩ | hnear
  · rw [(rates_plain_of hc hT hT' hr hsmall).2 (.inr h2), h1]
    rfl
  have hmk : mkRate R24 hz T ro i = .ok r := by
    unfold computeDrifts at hc
    split at hc
    · cases hc
    dsimp only at hc
    split at hc
    · cases hc
    obtain ⟨h2, h3⟩ := mkRates_inv hc
    have hi : i < rates.length := by
      rw [List.getElem?_eq_some_iff] at hr; exact hr.1
    obtain ⟨r', h4, h5⟩ := h3 i (by omega)
    rw [hr] at h4
    obtain rfl := Option.some.inj h4
    exact h5
  obtain ⟨_, _, m3, m4, m5⟩ := mkRate_inv hmk
  rw [slope_eq R24 hsmall hT hT'] at m3
  rw [m3, hdes] at m5
  simp only [desmearBins, if_true] at m5
  have hn : (1 : ℚ) ≤ (T : ℚ) - 1 := by
    have : (2 : ℚ) ≤ T := by exact_mod_cast hT
    linarith
  generalize hD : ro.low + (i : Int) * ro.step = d at *
  set q : ℚ := (d : ℚ) / ((T : ℚ) - 1) with hq
  have hqa : |q| = |(d : ℚ)| / ((T : ℚ) - 1) := by rw [hq, abs_div, abs_of_pos (show (0 : ℚ) < (T : ℚ) - 1 by linarith)]
  have hqd : |q| ≤ |(d : ℚ)| := by
    rw [hqa]
    exact div_le_self (abs_nonneg _) hn
  have herr := R24.err q
  have hdist : |(|R24.r q| - (w : Int) : ℚ)| < 1 / 2 := by
    have e1 := abs_abs_sub_abs_le (R24.r q) q
    have e2 : |(|q| - (w : ℚ))| < 1 / 2 - |(d : ℚ)| * 2 ^ (-23 : ℤ) := by
      rw [hqa, abs_sub_comm]
      exact hnear
    have e3 := abs_sub_le |R24.r q| |q| ((w : Int) : ℚ)
    have e4 : |q| * 2 ^ (1 - ((24 : Nat) : ℤ)) ≤ |(d : ℚ)| * 2 ^ (-23 : ℤ) := by
      rw [show (1 - ((24 : Nat) : ℤ)) = -23 by norm_num]
      exact mul_le_mul_of_nonneg_right hqd (by positivity)
    rw [Int.cast_natCast] at e3 ⊢
    exact lt_of_le_of_lt e3 (lt_of_lt_of_eq (add_lt_add_of_le_of_lt (e1.trans (herr.trans e4)) e2) (by ring))
  rw [roundAway_eq hdist] at m5
  unfold toInt32 at m5
  split at m5
  · have := Outcome.ok.inj m5
    have := hw.pos
    omega
  · cases m5

section
variable {F : Type} [Field F] [LinearOrder F] [IsStrictOrderedRing F]

/-- A cell that is stronger than every other one, and above the threshold, is reported. -/
theorem peak_reported (ar : Arith F Fl) (fltMin : F) (junk : Coord → Int) (cc : Channel Fl) (p : Plane F Fl)
    (noisePower floor : F) (o : Options F) (hm : o.method = .connectedComponents) (hmin : 0 ≤ fltMin)
    (hthr : fltMin ≤ o.thr) (hr : p.grid.drifts ≤ p.rates.length) {x₀ : Coord} (hx₀ : p.grid.has x₀)
    (habove : o.thr < (toSearch ar p noisePower floor o).snr x₀)
    (hweak : ∀ x : Coord, p.grid.has x → x ≠ x₀ →
      (toSearch ar p noisePower floor o).snr x < (toSearch ar p noisePower floor o).snr x₀) :
    ∃ hs h, hitSearch ar fltMin junk cc p noisePower floor o = .ok hs ∧ h ∈ hs ∧
      h.rateIndex = x₀.1 ∧ h.startFreqIndex = x₀.2 ∧
      (∃ r, p.rates[x₀.1.toNat]? = some r ∧ h.driftRate = r.hz) ∧
      h.snr = (toSearch ar p noisePower floor o).snr x₀ ∧
      ∀ h' ∈ hs, h'.snr ≤ h.snr ∧ (h'.snr = h.snr → h'.rateIndex = x₀.1 ∧ h'.startFreqIndex = x₀.2) := by
  have hhalf : ∀ v : F, o.thr < v → o.thr / 2 < v := fun v hv =>
    lt_of_le_of_lt (half_le_self (hmin.trans hthr)) hv
  have hlow : ∀ v : F, o.thr < v → fltMin < v := fun v hv => lt_of_le_of_lt hthr hv
  obtain ⟨cs, hs, e1, e2, e3, e4⟩ := hitSearch_covers ar fltMin junk cc p noisePower floor o hm
    (fun _ _ _ => lt_trans) (fun _ => lt_irrefl _) hr hhalf hlow
  obtain ⟨c, hc, hxc, h, hh, hdesc, hsnr, hlt⟩ := e4 x₀ hx₀ habove
  have hpeak : c.indexMax = x₀ := by
    by_contra hne
    have hg := hdesc.inPlane
    rw [hdesc.peak.1, hdesc.peak.2] at hg
    have := hweak c.indexMax hg hne
    rw [← hsnr] at this
    exact hlt this
  have hcoord : ∀ h' ∈ hs, p.grid.has (h'.rateIndex, h'.startFreqIndex) ∧
      h'.snr = (toSearch ar p noisePower floor o).snr (h'.rateIndex, h'.startFreqIndex) := by
    intro h' hh'
    obtain ⟨j, hj, rfl⟩ := List.getElem_of_mem hh'
    have hlen := e3.length_eq
    have hd' := (List.forall₂_iff_get.1 e3).2 j (by omega) hj
    refine ⟨hd'.inPlane, ?_⟩
    obtain ⟨r, r1, _, r3⟩ := hd'.rate
    simp only [List.get_eq_getElem] at r1 r3
    rw [r3]
    unfold Search.snr
    have : (toSearch ar p noisePower floor o).noise hs[j].rateIndex = noiseOf ar noisePower p.steps r := by
      simp only [toSearch]
      rw [r1]
    rw [this]
    rfl
  refine ⟨hs, h, e2, hh, ?_, ?_, ?_, ?_, ?_⟩
  · rw [hdesc.peak.1, hpeak]
  · rw [hdesc.peak.2, hpeak]
  · obtain ⟨r, r1, r2, _⟩ := hdesc.rate
    rw [hdesc.peak.1, hpeak] at r1
    exact ⟨r, r1, r2⟩
  · rw [hsnr, hpeak]
  · intro h' hh'
    obtain ⟨q1, q2⟩ := hcoord h' hh'
    rw [hsnr, hpeak, q2]
    by_cases he : (h'.rateIndex, h'.startFreqIndex) = x₀
    · rw [he]
      exact ⟨le_refl _, fun _ => by rw [← he]; exact ⟨rfl, rfl⟩⟩
    · have := hweak _ q1 he
      exact ⟨this.le, fun heq => absurd heq (ne_of_lt this)⟩

theorem computeDrifts_of {R24 : Rounding 24} {R53 : Rounding 53} {hz : Fl → Fl} {inp : Input F}
    {ro : RateOptions} {a : Acc F} {rates : List (Rate Fl)}
    (h : integrateDrifts R24 R53 hz inp ro = .ok (a, rates)) :
    computeDrifts R24 hz inp.timeSteps ro = .ok rates := by
  unfold integrateDrifts at h
  cases hc : computeDrifts R24 hz inp.timeSteps ro with
  | throws e => simp [hc] at h
  | ub => simp [hc] at h
  | ok rs =>
    rw [hc] at h
    simp only [Outcome.bind_ok] at h
    cases rs with
    | nil => simp at h
    | cons r rs =>
      simp only at h
      cases hi : integrateCpu (flOps R53) inp (r :: rs) with
      | throws e => simp [hi] at h
      | ub => simp [hi] at h
      | ok a' =>
        simp only [hi, Outcome.bind_ok] at h
        have := Outcome.ok.inj h
        simp only [Prod.mk.injEq] at this
        rw [this.2]

/-- The comparison of a cell with the tone's, over a background `g` above the noise floor. -/
theorem cell_weaker {T : Nat} (hT : 0 < T) {q : Nat → F} (hq : ∀ t < T, 0 < q t) {ov : Nat → Nat} {w D : Nat}
    (hD : 1 ≤ D) (h1 : ∀ t, ov t ≤ w) (h2 : ∀ t, ov t ≤ D) {n : Int → F} (hw0 : 0 < n w)
    (hD0 : 0 < n D) {g : F} (hg : 0 ≤ g) (hless : D < w → n w < n D)
    (hwide : w < D → (w * ((∑ t ∈ Finset.range T, q t) / T) + g * D) * n w <
      ((∑ t ∈ Finset.range T, q t) / T + g) * (D * n D))
    (hne : D = w → ∃ t < T, ov t ≠ w) :
    ((∑ t ∈ Finset.range T, (ov t : F) * q t) / D / T + g) / n D < ((∑ t ∈ Finset.range T, q t) / T + g) / n w := by
  have hTF : (0 : F) < T := by exact_mod_cast hT
  have hDF : (0 : F) < D := by exact_mod_cast hD
  have hS : 0 < ∑ t ∈ Finset.range T, q t :=
    Finset.sum_pos (fun t ht => hq t (Finset.mem_range.1 ht)) ⟨0, Finset.mem_range.2 hT⟩
  have hle : ∀ m : Nat, (∀ t, ov t ≤ m) →
      (∑ t ∈ Finset.range T, (ov t : F) * q t) / T ≤ m * ((∑ t ∈ Finset.range T, q t) / T) := by
    intro m hm
    rw [← mul_div_assoc, div_le_div_iff_of_pos_right hTF, Finset.mul_sum]
    refine Finset.sum_le_sum fun t ht => mul_le_mul_of_nonneg_right ?_ (hq t (Finset.mem_range.1 ht)).le
    exact_mod_cast hm t
  have hlt : D = w → (∑ t ∈ Finset.range T, (ov t : F) * q t) / T < w * ((∑ t ∈ Finset.range T, q t) / T) := by
    intro heq
    obtain ⟨t, ht, hov⟩ := hne heq
    rw [← mul_div_assoc, div_lt_div_iff_of_pos_right hTF, Finset.mul_sum]
    refine Finset.sum_lt_sum (fun t ht => mul_le_mul_of_nonneg_right ?_ (hq t (Finset.mem_range.1 ht)).le)
      ⟨t, Finset.mem_range.2 ht, mul_lt_mul_of_pos_right ?_ (hq t ht)⟩
    · exact_mod_cast h1 t
    · have := h1 t
      exact_mod_cast lt_of_le_of_ne this hov
  have hQ : 0 < (∑ t ∈ Finset.range T, q t) / (T : F) := div_pos hS hTF
  have eA : (∑ t ∈ Finset.range T, (ov t : F) * q t) / D / T =
      (∑ t ∈ Finset.range T, (ov t : F) * q t) / T / D := by rw [div_div, div_div, mul_comm]
  rw [eA]
  have hl1 := hle w h1
  have hl2 := hle D h2
  generalize (∑ t ∈ Finset.range T, (ov t : F) * q t) / (T : F) = A at *
  generalize (∑ t ∈ Finset.range T, q t) / (T : F) = Q at *
  have key : (A + g * D) * n w < (Q + g) * (D * n D) := by
    rcases lt_trichotomy D w with hD1 | heq | hgt
    · have k1 := hless hD1
      calc _ ≤ (D * Q + g * D) * n w := mul_le_mul_of_nonneg_right (by linarith) hw0.le
        _ = (Q + g) * D * n w := by ring
        _ < (Q + g) * D * n D := mul_lt_mul_of_pos_left k1 (mul_pos (by linarith) hDF)
        _ = _ := by ring
    · have k1 := hlt heq
      rw [heq]
      calc _ < (w * Q + g * w) * n w := mul_lt_mul_of_pos_right (by linarith) hw0
        _ = _ := by ring
    · exact lt_of_le_of_lt (mul_le_mul_of_nonneg_right (by linarith) hw0.le) (hwide hgt)
  rw [div_add' _ _ _ hDF.ne', div_div, div_lt_div_iff₀ (mul_pos hDF hD0) hw0]
  exact key

/-- A drift that is searched has at most `most` channels per time step. -/
theorem widths_le {T : Nat} {ro : RateOptions} {d most : Int} {i₀ w : Nat} (hT : 2 ≤ T) (hw : ChannelsPerStep T d w)
    (hsteps : ∀ i : Nat, (i : Int) < (ro.high - ro.low).tdiv ro.step → |ro.low + i * ro.step| ≤ most * ((T : Int) - 1))
    (hi₀ : (i₀ : Int) < (ro.high - ro.low).tdiv ro.step) (hd : d = ro.low + i₀ * ro.step) (hmost : 1 ≤ most) :
    (w : Int) ≤ most := by
  rcases hw.near with ⟨h, _⟩ | h
  · omega
  · have h1 := hsteps i₀ hi₀
    rw [← hd] at h1
    have h2 : |(d : ℚ)| ≤ most * ((T : ℚ) - 1) := by exact_mod_cast h1
    have hT1 : (0 : ℚ) < (T : ℚ) - 1 := by
      have : (2 : ℚ) ≤ T := by exact_mod_cast hT
      linarith
    have h3 : |(d : ℚ)| / ((T : ℚ) - 1) ≤ most := by rwa [div_le_iff₀ hT1]
    have h4 : (0 : ℚ) ≤ |(d : ℚ)| * 2 ^ (-23 : ℤ) := by positivity
    have h5 := (abs_lt.1 h).2
    have h6 : (w : ℚ) < most + 1 := by
      generalize |(d : ℚ)| * 2 ^ (-23 : ℤ) = u at h4 h5
      linarith
    have h7 : (w : Int) < most + 1 := by exact_mod_cast h6
    omega

/-- A smeared tone over a background of at most `level`, in terms of the comparison with lines of other widths. -/
theorem smeared_tone_level (R24 : Rounding 24) (R53 : Rounding 53) (hz : Fl → Fl)
    (ar : Arith F Fl) (fltMin : F) (junk : Coord → Int) (cc : Channel Fl) {inp : Input F}
    {grid : Nat → Int → F} {mask : Nat → Int → UInt8} (hin : Holds inp grid mask)
    (hview : inp.specOffset = 0 ∧ inp.rfiOffset = 0) {ro : RateOptions} (hT : 2 ≤ inp.timeSteps)
    (hT' : (inp.timeSteps : Int) - 1 ≤ 2 ^ 24) (hstep : ro.step ≠ 0) (hdes : ro.desmear = true)
    (hrange : ∀ i : Nat, (i : Int) < (ro.high - ro.low).tdiv ro.step →
      |ro.low + i * ro.step| < 2 ^ 22 ∧ 2 * |ro.low + i * ro.step| ≤ inp.numChannels)
    {c₀ d : Int} {i₀ w : Nat} (hi₀ : (i₀ : Int) < (ro.high - ro.low).tdiv ro.step)
    (hd : d = ro.low + i₀ * ro.step) (hw : ChannelsPerStep inp.timeSteps d w)
    (hstart : 0 ≤ c₀ ∧ c₀ < inp.numChannels) (hstop : 0 ≤ c₀ + d ∧ c₀ + d < inp.numChannels)
    {ch : Nat → Int} (hline : ToneLine inp.timeSteps c₀ d ch)
    (hband : ∀ t < inp.timeSteps, ∀ c : Int, InWindow d w (ch t) c → 0 ≤ c ∧ c < inp.numChannels)
    (noisePower floor : F) {level : F} (hfl : 0 ≤ level) (hle : floor ≤ level) {p : Nat → F}
    (htone : SmearedTone inp.numChannels inp.timeSteps grid d w ch level p)
    (o : Options F) (hm : o.method = .connectedComponents)
    {most : Int} (hmost : 1 ≤ most ∧ most ≤ 2 ^ 24)
    (hsteps : ∀ i : Nat, (i : Int) < (ro.high - ro.low).tdiv ro.step →
      |ro.low + i * ro.step| ≤ most * ((inp.timeSteps : Int) - 1))
    (hnoise : ∀ k : Int, 1 ≤ k → k ≤ most → 0 < driftNoise ar noisePower (inp.timeSteps * k))
    (hless : ∀ D : Nat, 1 ≤ D → D < w →
      driftNoise ar noisePower (inp.timeSteps * w) < driftNoise ar noisePower (inp.timeSteps * D))
    (hwide : ∀ D : Nat, w < D → (D : Int) ≤ most →
      (w * ((∑ t ∈ Finset.range inp.timeSteps, (p t - level)) / (inp.timeSteps : F)) + (level - floor) * D) *
        driftNoise ar noisePower (inp.timeSteps * w) <
      ((∑ t ∈ Finset.range inp.timeSteps, (p t - level)) / (inp.timeSteps : F) + (level - floor)) *
        (D * driftNoise ar noisePower (inp.timeSteps * D)))
    (hmin : 0 ≤ fltMin) (hthr : fltMin ≤ o.thr)
    (habove : o.thr < ((∑ t ∈ Finset.range inp.timeSteps, p t) / (inp.timeSteps : F) - floor) /
      driftNoise ar noisePower (inp.timeSteps * w)) :
    ∃ (hs : List (Hit F Fl)) (h : Hit F Fl),
      driftSearch R24 R53 hz ar fltMin junk cc inp ro noisePower floor o = .ok hs ∧ h ∈ hs ∧
      h.startFreqIndex = c₀ ∧ h.rateIndex = i₀ ∧
      h.driftRate = hz (.fin (R24.r ((d : ℚ) / ((inp.timeSteps : ℚ) - 1)))) ∧
      h.snr = ((∑ t ∈ Finset.range inp.timeSteps, p t) / (inp.timeSteps : F) - floor) /
        driftNoise ar noisePower (inp.timeSteps * w) ∧
      ∀ h' ∈ hs, h'.snr ≤ h.snr ∧ (h'.snr = h.snr → h'.startFreqIndex = c₀ ∧ h'.rateIndex = i₀) := by
  obtain ⟨a, rates, off, h1, h2, h3⟩ :=
    C07_defined_partial R24 R53 hz hin hview hT hT' hstep (by omega) hrange
  have hcd := computeDrifts_of h1
  set s := toSearch ar (planeOf inp a rates) noisePower floor o with hsdef
  set n : Int → F := fun k => driftNoise ar noisePower (inp.timeSteps * k) with hn
  set T := inp.timeSteps with hTdef
  set N := inp.numChannels with hNdef
  have hTF : (0 : F) < (T : F) := by
    have : 0 < T := by omega
    exact_mod_cast this
  have hcell : ∀ (i : Nat) (r : Rate Fl), rates[i]? = some r → ∀ c : Int, 0 ≤ c → c < N →
      s.snr (i, c) = ((∑ t ∈ Finset.range T, (∑ k ∈ Finset.range r.desmear.toNat,
        binContribution N (decide (0 ≤ r.span)) r.span (off i) grid c t k)) / (r.desmear : F) / (T : F) -
          floor) / n r.desmear := by
    intro i r hr c h0 hc
    obtain ⟨_, g2, _, _, g5⟩ := h3 i r hr
    have hv := snr_cell (ar := ar) (noisePower := noisePower) (floor := floor) (o := o) hr (g5 c h0 hc).1
    rw [pathSum_bins, Int.cast_natCast] at hv
    rw [hv, Finset.sum_div]
    simp only [Finset.sum_div]
    rfl
  have hi₀l : i₀ < rates.length := by omega
  have hget₀ := List.getElem?_eq_getElem hi₀l
  obtain ⟨_, g2, _, g4, _⟩ := h3 i₀ _ hget₀
  rw [← hd] at g2
  rw [g2] at g4
  have hch : ∀ t < T, ch t = c₀ + off i₀ t := tone_offsets hline g4
  have hw₀ : rates[i₀].desmear = w :=
    rate_bins hcd hdes hT hT' hget₀ (by have := hrange i₀ hi₀; omega) (by rw [← hd]; exact hw)
  have hbins : ∀ (i : Nat) (r : Rate Fl), rates[i]? = some r → 1 ≤ r.desmear ∧ r.desmear ≤ most := by
    intro i r hr
    have hil : i < rates.length := by
      rw [List.getElem?_eq_some_iff] at hr; exact hr.1
    have hrg := hrange i (by omega)
    exact rate_bins_le hcd hT hT' hr (by omega) hmost.1 hmost.2 (hsteps i (by omega))
  have htoneSnr : s.snr ((i₀ : Int), c₀) =
      ((∑ t ∈ Finset.range T, p t) / (T : F) - floor) / n w := by
    rw [hcell i₀ _ hget₀ c₀ hstart.1 hstart.2, g2, hw₀]
    have : ∑ t ∈ Finset.range T, (∑ k ∈ Finset.range (w : Int).toNat,
        binContribution N (decide (0 ≤ d)) d (off i₀) grid c₀ t k) = w * ∑ t ∈ Finset.range T, p t := by
      rw [Finset.mul_sum]
      refine Finset.sum_congr rfl fun t ht => ?_
      rw [Int.toNat_natCast]
      exact bins_own htone g4 hch hstart.1 hstart.2 hband hstop.1 (Finset.mem_range.1 ht)
    rw [this, Int.cast_natCast]
    have hwF : (w : F) ≠ 0 := by
      have := hw.pos
      exact_mod_cast (show w ≠ 0 by omega)
    rw [mul_div_cancel_left₀ _ hwF]
  have hweak : ∀ x : Coord, (planeOf inp a rates).grid.has x → x ≠ ((i₀ : Int), c₀) →
      s.snr x < s.snr ((i₀ : Int), c₀) := by
    rintro ⟨xi, c⟩ ⟨x1, x2, x3, x4⟩ hne
    obtain ⟨i, rfl⟩ := Int.eq_ofNat_of_zero_le x1
    change ((i : Nat) : Int) < ((rates.length : Nat) : Int) at x2
    change c < ((N : Nat) : Int) at x4
    have hil : i < rates.length := by omega
    have hget := List.getElem?_eq_getElem hil
    obtain ⟨_, k2, _, k4, _⟩ := h3 i _ hget
    obtain ⟨b1, b2⟩ := hbins i _ hget
    obtain ⟨w1, w2⟩ := hbins i₀ _ hget₀
    rw [hw₀] at w1 w2
    obtain ⟨D, hD⟩ := Int.eq_ofNat_of_zero_le (show 0 ≤ rates[i].desmear by omega)
    change s.snr ((i : Int), c) < _
    rw [htoneSnr, hcell i _ hget c x3 x4, hD, Int.toNat_natCast, Int.cast_natCast]
    rw [hD] at b1 b2
    have hDF : (0 : F) < D := by
      have : 0 < D := by omega
      exact_mod_cast this
    set ov : Nat → Nat := fun t => overlap d w (ch t) rates[i].span D (c + off i t) with hov
    have hsum : ∑ t ∈ Finset.range T, (∑ k ∈ Finset.range D,
        binContribution N (decide (0 ≤ rates[i].span)) rates[i].span (off i) grid c t k) ≤
        T * (D * level) + ∑ t ∈ Finset.range T, (ov t : F) * (p t - level) := by
      refine (Finset.sum_le_sum fun t ht => bins_le htone hfl k4 (Finset.mem_range.1 ht) x3 x4 D).trans ?_
      rw [Finset.sum_add_distrib, Finset.sum_const, Finset.card_range, nsmul_eq_mul]
    have hlt := cell_weaker (n := n) (T := T) (q := fun t => p t - level) (by omega)
      (fun t ht => sub_pos.2 (htone.strong t ht)) (ov := ov) (w := w) (D := D) (by omega)
      (fun t => overlap_le_width _ _ _ _ _ _) (fun t => overlap_le_bins _ _ _ _ _ _)
      (hnoise w (by omega) (by omega)) (hnoise D (by omega) (by omega)) (sub_nonneg.2 hle)
      (hless D (by omega)) (fun h => hwide D h (by omega)) (by
        intro hDw
        by_contra hall
        push Not at hall
        have hlow : ∀ t < T, low d w (ch t) = low rates[i].span w (c + off i t) := by
          intro t ht
          have := hall t ht
          simp only [hov] at this
          rw [hDw] at this
          exact overlap_full (by omega) this
        have s0 := hlow 0 (by omega)
        have s1 := hlow (T - 1) (by omega)
        rw [hch 0 (by omega), k4.start, g4.start] at s0
        rw [hch (T - 1) (by omega), k4.stop, g4.stop] at s1
        have hspan : d = rates[i].span := by
          unfold low at s0 s1
          split_ifs at s0 s1 <;> omega
        have hcc : c = c₀ := by
          rw [← hspan] at s0
          unfold low at s0
          split_ifs at s0 <;> omega
        rw [k2, hd] at hspan
        have hmul : ((i : Int) - i₀) * ro.step = 0 := by
          rw [sub_mul]; omega
        rcases mul_eq_zero.1 hmul with h | h
        · exact hne (by rw [hcc, show (i : Int) = i₀ by omega])
        · exact hstep h)
    have e1 : (∑ t ∈ Finset.range T, p t) / (T : F) - floor =
        (∑ t ∈ Finset.range T, (p t - level)) / T + (level - floor) := by
      rw [Finset.sum_sub_distrib, Finset.sum_const, Finset.card_range, nsmul_eq_mul, sub_div,
        mul_div_cancel_left₀ _ hTF.ne']
      ring
    rw [e1]
    refine lt_of_le_of_lt ?_ hlt
    refine div_le_div_of_nonneg_right ?_ (hnoise D (by omega) (by omega)).le
    rw [sub_le_iff_le_add, div_le_iff₀ hTF, div_le_iff₀ hDF]
    refine hsum.trans (le_of_eq ?_)
    field_simp
    ring
  obtain ⟨hs, h, q1, q2, q3, q4, ⟨r, q5, q5'⟩, q6, q7⟩ := peak_reported ar fltMin junk cc (planeOf inp a rates)
    noisePower floor o hm hmin hthr (by simp [planeOf]) (x₀ := ((i₀ : Int), c₀))
    ⟨by simp, by simpa [planeOf] using hi₀l, hstart.1, hstart.2⟩
    (by rw [← hsdef, htoneSnr]; exact habove) hweak
  refine ⟨hs, h, ?_, q2, q4, q3, ?_, ?_, fun h' hh' => ⟨(q7 h' hh').1, fun e => ⟨((q7 h' hh').2 e).2, ((q7 h' hh').2 e).1⟩⟩⟩
  · simp only [driftSearch, h1, Outcome.bind_ok]; exact q1
  · simp only [planeOf, Int.toNat_natCast, List.getElem?_map, hget₀, Option.map_some,
      Option.some.injEq] at q5
    rw [q5', ← q5]
    have := (rates_plain h1 hT hT' hget₀ (by have := hrange i₀ hi₀; omega)).1
    rw [← hd] at this
    exact this
  · rw [q6, ← hsdef, htoneSnr]

/-- **C155.** A tone drifts by `d` channels over the observation, and with that `w` channels per time
step over which its power is spread; `d` is one of the searched drifts, desmearing is on and the tone
stays in the band. In exact arithmetic, when the noise falls with the number of channels that are averaged
as the inverse square root does, and the tone's SNR is above the threshold, the drift integration and the
hit search return, and one of the hits is the tone: start channel `c₀`, drift `d` and the tone's SNR. It is
the strongest hit, and the only one of that strength.

Missing: float rounding of the sums. The start frequency is that of the middle of the cluster
(`C155_start_frequency`). -/
theorem C155_smeared_tone_partial (R24 : Rounding 24) (R53 : Rounding 53) (hz : Fl → Fl)
    (ar : Arith F Fl) (fltMin : F) (junk : Coord → Int) (cc : Channel Fl) {inp : Input F}
    {grid : Nat → Int → F} {mask : Nat → Int → UInt8} (hin : Holds inp grid mask)
    (hview : inp.specOffset = 0 ∧ inp.rfiOffset = 0) {ro : RateOptions} (hT : 2 ≤ inp.timeSteps)
    (hT' : (inp.timeSteps : Int) - 1 ≤ 2 ^ 24) (hstep : ro.step ≠ 0) (hdes : ro.desmear = true)
    (hrange : ∀ i : Nat, (i : Int) < (ro.high - ro.low).tdiv ro.step →
      |ro.low + i * ro.step| < 2 ^ 22 ∧ 2 * |ro.low + i * ro.step| ≤ inp.numChannels)
    {c₀ d : Int} {i₀ w : Nat} (hi₀ : (i₀ : Int) < (ro.high - ro.low).tdiv ro.step)
    (hd : d = ro.low + i₀ * ro.step) (hw : ChannelsPerStep inp.timeSteps d w)
    (hstart : 0 ≤ c₀ ∧ c₀ < inp.numChannels) (hstop : 0 ≤ c₀ + d ∧ c₀ + d < inp.numChannels)
    {ch : Nat → Int} (hline : ToneLine inp.timeSteps c₀ d ch)
    (hband : ∀ t < inp.timeSteps, ∀ c : Int, InWindow d w (ch t) c → 0 ≤ c ∧ c < inp.numChannels)
    (noisePower floor : F) (hfl : 0 ≤ floor) {p : Nat → F}
    (htone : SmearedTone inp.numChannels inp.timeSteps grid d w ch floor p)
    (o : Options F) (hm : o.method = .connectedComponents)
    {most : Int} (hmost : 1 ≤ most ∧ most ≤ 2 ^ 24)
    (hsteps : ∀ i : Nat, (i : Int) < (ro.high - ro.low).tdiv ro.step →
      |ro.low + i * ro.step| ≤ most * ((inp.timeSteps : Int) - 1))
    (hnoise : ∀ k : Int, 1 ≤ k → k ≤ most → 0 < driftNoise ar noisePower (inp.timeSteps * k))
    (hfalls : NoiseFalls (fun k => driftNoise ar noisePower (inp.timeSteps * k)) most)
    (hmin : 0 ≤ fltMin) (hthr : fltMin ≤ o.thr)
    (habove : o.thr < ((∑ t ∈ Finset.range inp.timeSteps, p t) / (inp.timeSteps : F) - floor) /
      driftNoise ar noisePower (inp.timeSteps * w)) :
    ∃ (hs : List (Hit F Fl)) (h : Hit F Fl),
      driftSearch R24 R53 hz ar fltMin junk cc inp ro noisePower floor o = .ok hs ∧ h ∈ hs ∧
      h.startFreqIndex = c₀ ∧ h.rateIndex = i₀ ∧
      h.driftRate = hz (.fin (R24.r ((d : ℚ) / ((inp.timeSteps : ℚ) - 1)))) ∧
      h.snr = ((∑ t ∈ Finset.range inp.timeSteps, p t) / (inp.timeSteps : F) - floor) /
        driftNoise ar noisePower (inp.timeSteps * w) ∧
      ∀ h' ∈ hs, h'.snr ≤ h.snr ∧ (h'.snr = h.snr → h'.startFreqIndex = c₀ ∧ h'.rateIndex = i₀) := by
  refine smeared_tone_level R24 R53 hz ar fltMin junk cc hin hview hT hT' hstep hdes hrange hi₀ hd hw hstart
    hstop hline hband noisePower floor hfl le_rfl htone o hm hmost hsteps hnoise ?_ ?_ hmin hthr habove
  · intro D h1 h2
    have hwm : (w : Int) ≤ most := widths_le hT hw hsteps hi₀ hd hmost.1
    exact (hfalls D w (by omega) (by omega) hwm).1
  · intro D h1 h2
    have h3 := (hfalls w D (by have := hw.pos; omega) (by omega) h2).2
    push_cast at h3
    have hTF : (0 : F) < inp.timeSteps := by exact_mod_cast (show 0 < inp.timeSteps by omega)
    have hS : 0 < (∑ t ∈ Finset.range inp.timeSteps, (p t - floor)) / (inp.timeSteps : F) :=
      div_pos (Finset.sum_pos (fun t ht => sub_pos.2 (htone.strong t (Finset.mem_range.1 ht)))
        ⟨0, Finset.mem_range.2 (by omega)⟩) hTF
    rw [sub_self, zero_mul, add_zero, add_zero]
    calc _ = (∑ t ∈ Finset.range inp.timeSteps, (p t - floor)) / (inp.timeSteps : F) *
          (w * driftNoise ar noisePower (inp.timeSteps * w)) := by ring
      _ < _ := mul_lt_mul_of_pos_left h3 hS

/-- **C155, over noise.** As `C155_smeared_tone_partial`, with samples next to the tone above the noise floor: it is
enough that the tone's power over the strongest of them is `most` times what they are over the floor, where
`most` is the largest number of channels per time step that is searched. -/
theorem C155_tone_over_noise_partial (R24 : Rounding 24) (R53 : Rounding 53) (hz : Fl → Fl)
    (ar : Arith F Fl) (fltMin : F) (junk : Coord → Int) (cc : Channel Fl) {inp : Input F}
    {grid : Nat → Int → F} {mask : Nat → Int → UInt8} (hin : Holds inp grid mask)
    (hview : inp.specOffset = 0 ∧ inp.rfiOffset = 0) {ro : RateOptions} (hT : 2 ≤ inp.timeSteps)
    (hT' : (inp.timeSteps : Int) - 1 ≤ 2 ^ 24) (hstep : ro.step ≠ 0) (hdes : ro.desmear = true)
    (hrange : ∀ i : Nat, (i : Int) < (ro.high - ro.low).tdiv ro.step →
      |ro.low + i * ro.step| < 2 ^ 22 ∧ 2 * |ro.low + i * ro.step| ≤ inp.numChannels)
    {c₀ d : Int} {i₀ w : Nat} (hi₀ : (i₀ : Int) < (ro.high - ro.low).tdiv ro.step)
    (hd : d = ro.low + i₀ * ro.step) (hw : ChannelsPerStep inp.timeSteps d w)
    (hstart : 0 ≤ c₀ ∧ c₀ < inp.numChannels) (hstop : 0 ≤ c₀ + d ∧ c₀ + d < inp.numChannels)
    {ch : Nat → Int} (hline : ToneLine inp.timeSteps c₀ d ch)
    (hband : ∀ t < inp.timeSteps, ∀ c : Int, InWindow d w (ch t) c → 0 ≤ c ∧ c < inp.numChannels)
    (noisePower floor : F) {level : F} (hfl : 0 ≤ level) (hle : floor ≤ level) {p : Nat → F}
    (htone : SmearedTone inp.numChannels inp.timeSteps grid d w ch level p)
    (o : Options F) (hm : o.method = .connectedComponents)
    {most : Int} (hmost : 1 ≤ most ∧ most ≤ 2 ^ 24)
    (hsteps : ∀ i : Nat, (i : Int) < (ro.high - ro.low).tdiv ro.step →
      |ro.low + i * ro.step| ≤ most * ((inp.timeSteps : Int) - 1))
    (hnoise : ∀ k : Int, 1 ≤ k → k ≤ most → 0 < driftNoise ar noisePower (inp.timeSteps * k))
    (hfalls : NoiseFalls (fun k => driftNoise ar noisePower (inp.timeSteps * k)) most)
    (hsteady : NoiseSteady (fun k => driftNoise ar noisePower (inp.timeSteps * k)) most)
    (hclear : ∀ t < inp.timeSteps, most * (level - floor) < p t - level)
    (hmin : 0 ≤ fltMin) (hthr : fltMin ≤ o.thr)
    (habove : o.thr < ((∑ t ∈ Finset.range inp.timeSteps, p t) / (inp.timeSteps : F) - floor) /
      driftNoise ar noisePower (inp.timeSteps * w)) :
    ∃ (hs : List (Hit F Fl)) (h : Hit F Fl),
      driftSearch R24 R53 hz ar fltMin junk cc inp ro noisePower floor o = .ok hs ∧ h ∈ hs ∧
      h.startFreqIndex = c₀ ∧ h.rateIndex = i₀ ∧
      h.driftRate = hz (.fin (R24.r ((d : ℚ) / ((inp.timeSteps : ℚ) - 1)))) ∧
      h.snr = ((∑ t ∈ Finset.range inp.timeSteps, p t) / (inp.timeSteps : F) - floor) /
        driftNoise ar noisePower (inp.timeSteps * w) ∧
      ∀ h' ∈ hs, h'.snr ≤ h.snr ∧ (h'.snr = h.snr → h'.startFreqIndex = c₀ ∧ h'.rateIndex = i₀) := by
  have hwm : (w : Int) ≤ most := widths_le hT hw hsteps hi₀ hd hmost.1
  refine smeared_tone_level R24 R53 hz ar fltMin junk cc hin hview hT hT' hstep hdes hrange hi₀ hd hw hstart
    hstop hline hband noisePower floor hfl hle htone o hm hmost hsteps hnoise ?_ ?_ hmin hthr habove
  · intro D h1 h2
    exact (hfalls D w (by omega) (by omega) hwm).1
  · intro D h1 h2
    have h3 := (hfalls w D (by have := hw.pos; omega) (by omega) h2).2
    have h4 := hsteady w D (by have := hw.pos; omega) (by omega) h2
    push_cast at h3 h4
    have hTF : (0 : F) < inp.timeSteps := by exact_mod_cast (show 0 < inp.timeSteps by omega)
    have hS : most * (level - floor) < (∑ t ∈ Finset.range inp.timeSteps, (p t - level)) / (inp.timeSteps : F) := by
      rw [lt_div_iff₀ hTF]
      calc _ = ∑ _t ∈ Finset.range inp.timeSteps, (most : F) * (level - floor) := by
            rw [Finset.sum_const, Finset.card_range, nsmul_eq_mul, mul_comm]
        _ < _ := Finset.sum_lt_sum_of_nonempty ⟨0, Finset.mem_range.2 (by omega)⟩
          fun t ht => hclear t (Finset.mem_range.1 ht)
    generalize (∑ t ∈ Finset.range inp.timeSteps, (p t - level)) / (inp.timeSteps : F) = Q at *
    have h5 := mul_le_mul_of_nonneg_left h4 (sub_nonneg.2 hle)
    have h6 := mul_lt_mul_of_pos_right hS (sub_pos.2 h3)
    linarith

end

/-! ## The noise that the code computes -/

/-- Float and double arithmetic as far as the noise of a line needs it: integers are exact, square root and
quotient have a relative error of at most `2^-52`, the conversion to float of at most `2^-23`. -/
structure RoundedRoot (ar : Arith ℚ Fl) : Prop where
  toD : ∀ x, ar.toD x = .fin x
  ofInt : ∀ m : Int, 0 ≤ m → m ≤ 2 ^ 53 → ar.ofInt m = .fin m
  sqrt : ∀ q : ℚ, 0 < q → ∃ r : ℚ, ar.sqrt (.fin q) = .fin r ∧
    |(r : ℝ) - √(q : ℝ)| ≤ √(q : ℝ) * 2 ^ (-52 : ℤ)
  div : ∀ x y : ℚ, 0 < x → 0 < y → ∃ z : ℚ, ar.div (.fin x) (.fin y) = .fin z ∧ |z - x / y| ≤ x / y * 2 ^ (-52 : ℤ)
  toF : ∀ z : ℚ, 0 < z → |ar.toF (.fin z) - z| ≤ z * 2 ^ (-23 : ℤ)

/-- The inverse square root falls, also with errors. -/
theorem falls_of_root {n : Int → ℚ} {most : Int} {σ : ℝ} (hσ : 0 < σ) {ε : ℝ} (h0 : 0 ≤ ε)
    (hε : 8 * most * ε ≤ 1)
    (hn : ∀ k : Int, 1 ≤ k → k ≤ most → |(n k : ℝ) - σ / √(k : ℝ)| ≤ σ / √(k : ℝ) * ε) :
    NoiseFalls n most := by
  intro a b ha hab hb
  have haR : (1 : ℝ) ≤ a := by exact_mod_cast ha
  have habR : (a : ℝ) + 1 ≤ b := by exact_mod_cast hab
  have hbR : (b : ℝ) ≤ most := by exact_mod_cast hb
  have ra : 0 < √(a : ℝ) := Real.sqrt_pos.2 (by linarith)
  have rb : 0 < √(b : ℝ) := Real.sqrt_pos.2 (by linarith)
  have sa : √(a : ℝ) * √(a : ℝ) = a := Real.mul_self_sqrt (by linarith)
  have sb : √(b : ℝ) * √(b : ℝ) = b := Real.mul_self_sqrt (by linarith)
  have hε8 : ε ≤ 1 / 8 := by nlinarith
  have haε : 8 * a * ε ≤ 1 := by nlinarith
  -- the ratio of the roots is larger than that of the errors
  have key : (1 + ε) * √(a : ℝ) < (1 - ε) * √(b : ℝ) := by
    refine lt_of_pow_lt_pow_left₀ 2 (mul_nonneg (by linarith) rb.le) ?_
    rw [mul_pow, mul_pow, sq (√(a : ℝ)), sq (√(b : ℝ)), sa, sb]
    have : (1 + ε) ^ 2 * a < (1 - ε) ^ 2 * (a + 1) := by nlinarith
    have h2 : (1 - ε) ^ 2 * ((a : ℝ) + 1) ≤ (1 - ε) ^ 2 * b := mul_le_mul_of_nonneg_left habR (by positivity)
    linarith
  have ha' := abs_le.1 (hn a ha (by omega))
  have hb' := abs_le.1 (hn b (by omega) hb)
  have ea : (a : ℝ) * (σ / √(a : ℝ)) = σ * √(a : ℝ) := by
    rw [← sa]
    field_simp
    rw [Real.sqrt_sq ra.le]
  have eb : (b : ℝ) * (σ / √(b : ℝ)) = σ * √(b : ℝ) := by
    rw [← sb]
    field_simp
    rw [Real.sqrt_sq rb.le]
  constructor
  · have h1 : σ / √(b : ℝ) * (1 + ε) < σ / √(a : ℝ) * (1 - ε) := by
      rw [div_mul_eq_mul_div, div_mul_eq_mul_div, div_lt_div_iff₀ rb ra]
      nlinarith
    have : (n b : ℝ) < n a := by linarith
    exact_mod_cast this
  · have h1 : (a : ℝ) * n a ≤ σ * ((1 + ε) * √(a : ℝ)) := by
      have : (a : ℝ) * n a ≤ a * (σ / √(a : ℝ) * (1 + ε)) :=
        mul_le_mul_of_nonneg_left (by linarith) (by linarith)
      nlinarith
    have h2 : σ * ((1 - ε) * √(b : ℝ)) ≤ (b : ℝ) * n b := by
      have : (b : ℝ) * (σ / √(b : ℝ) * (1 - ε)) ≤ b * n b :=
        mul_le_mul_of_nonneg_left (by linarith) (by linarith)
      nlinarith
    have h3 := mul_lt_mul_of_pos_left key hσ
    have : (a : ℝ) * n a < b * n b := by linarith
    exact_mod_cast this

/-- The inverse square root is steady, also with errors. -/
theorem steady_of_root {n : Int → ℚ} {most : Int} {σ : ℝ} (hσ : 0 < σ) {ε : ℝ} (h0 : 0 ≤ ε)
    (hε : 32 * most * ε ≤ 1)
    (hn : ∀ k : Int, 1 ≤ k → k ≤ most → |(n k : ℝ) - σ / √(k : ℝ)| ≤ σ / √(k : ℝ) * ε) :
    NoiseSteady n most := by
  intro a b ha hab hb
  have haR : (1 : ℝ) ≤ a := by exact_mod_cast ha
  have habR : (a : ℝ) + 1 ≤ b := by exact_mod_cast hab
  have hbR : (b : ℝ) ≤ most := by exact_mod_cast hb
  have ha' := abs_le.1 (hn a ha (by omega))
  have hb' := abs_le.1 (hn b (by omega) hb)
  have ra : 1 ≤ √(a : ℝ) := Real.one_le_sqrt.2 haR
  have sa : √(a : ℝ) * √(a : ℝ) = a := Real.mul_self_sqrt (by linarith)
  have sb : √(b : ℝ) * √(b : ℝ) = b := Real.mul_self_sqrt (by linarith)
  have hst : √(a : ℝ) < √(b : ℝ) := Real.sqrt_lt_sqrt (by linarith) (by linarith)
  generalize √(a : ℝ) = x at *
  generalize √(b : ℝ) = y at *
  have hx : 0 < x := by linarith
  have hy : 0 < y := by linarith
  set m : ℝ := ((most : Int) : ℝ) with hm
  have hm2 : 2 ≤ m := by linarith
  -- bounds on both sides
  have h1 : (b : ℝ) * ((n a : ℝ) - n b) ≤ σ * (y / x * (y - x) + ε * (y / x * (y + x))) := by
    have : (b : ℝ) * ((n a : ℝ) - n b) ≤ b * (σ / x * (1 + ε) - σ / y * (1 - ε)) :=
      mul_le_mul_of_nonneg_left (by linarith) (by linarith)
    refine this.trans (le_of_eq ?_)
    rw [← sb]
    field_simp
    ring
  have h2 : σ * ((y - x) - ε * (y + x)) ≤ (b : ℝ) * n b - a * n a := by
    have e1 : (b : ℝ) * (σ / y * (1 - ε)) ≤ b * n b := mul_le_mul_of_nonneg_left (by linarith) (by linarith)
    have e2 : (a : ℝ) * n a ≤ a * (σ / x * (1 + ε)) := mul_le_mul_of_nonneg_left (by linarith) (by linarith)
    have e3 : (b : ℝ) * (σ / y * (1 - ε)) = σ * (y * (1 - ε)) := by rw [← sb]; field_simp
    have e4 : (a : ℝ) * (σ / x * (1 + ε)) = σ * (x * (1 + ε)) := by rw [← sa]; field_simp
    rw [e3] at e1
    rw [e4] at e2
    linarith
  -- the comparison
  have hyx : y / x ≤ 3 / 4 * m := by
    rw [div_le_iff₀ hx]
    have : y ≤ 3 / 4 * m := by
      have hym : y * y ≤ m := by linarith
      nlinarith [sq_nonneg (y - 4 / 3), sq_nonneg (y - 3 / 2)]
    nlinarith
  have hr0 : 0 ≤ y / x := by positivity
  have hgap : 1 ≤ (y - x) * (y + x) := by nlinarith
  have hsum : (y + x) * (y + x) ≤ 4 * m := by nlinarith
  have hεs : ε * (y + x) * 8 ≤ y - x := by
    have h3 : ε * (y + x) * 8 * (y + x) ≤ (y - x) * (y + x) := by
      have : ε * ((y + x) * (y + x)) ≤ ε * (4 * m) := mul_le_mul_of_nonneg_left hsum h0
      nlinarith
    exact le_of_mul_le_mul_right h3 (by linarith)
  have hmain : y / x * (y - x) + ε * (y / x * (y + x)) ≤ m * ((y - x) - ε * (y + x)) := by
    have hd : 0 ≤ y - x := by linarith
    have h3 : y / x * (y - x) ≤ 3 / 4 * m * (y - x) := mul_le_mul_of_nonneg_right hyx hd
    have h4 : ε * (y / x * (y + x)) ≤ 3 / 4 * m * (ε * (y + x)) := by
      calc ε * (y / x * (y + x)) = y / x * (ε * (y + x)) := by ring
        _ ≤ _ := mul_le_mul_of_nonneg_right hyx (mul_nonneg h0 (by linarith))
    have h5 : m * (ε * (y + x) * 8) ≤ m * (y - x) := mul_le_mul_of_nonneg_left hεs (by linarith)
    nlinarith
  have h6 := mul_le_mul_of_nonneg_left hmain hσ.le
  have h7 : m * (σ * ((y - x) - ε * (y + x))) ≤ m * ((b : ℝ) * n b - a * n a) :=
    mul_le_mul_of_nonneg_left h2 (by linarith)
  have : (b : ℝ) * ((n a : ℝ) - n b) ≤ most * ((b : ℝ) * n b - a * n a) := by
    rw [← hm]
    linarith
  exact_mod_cast this

/-- The noise of a line of `k` bins over `T` time steps is `noisePower / √(T k)` up to a relative error of
`2^-22`. -/
theorem noise_root {ar : Arith ℚ Fl} (har : RoundedRoot ar) {noisePower : ℚ} (hp : 0 < noisePower) {m : Int}
    (h0 : 1 ≤ m) (hm : m ≤ 2 ^ 53) :
    |((driftNoise ar noisePower m : ℚ) : ℝ) - noisePower / √(m : ℝ)| ≤ noisePower / √(m : ℝ) * 2 ^ (-22 : ℤ) := by
  have hmq : (1 : ℚ) ≤ m := by exact_mod_cast h0
  obtain ⟨r, r1, r2⟩ := har.sqrt (m : ℚ) (by linarith)
  rw [Rat.cast_intCast] at r2
  have hpR : (0 : ℝ) < noisePower := by exact_mod_cast hp
  have rm : 0 < √(m : ℝ) := Real.sqrt_pos.2 (by exact_mod_cast (show (0 : Int) < m by omega))
  rw [abs_le] at r2
  have hr : (0 : ℝ) < r := by
    have : √(m : ℝ) * 2 ^ (-52 : ℤ) < √(m : ℝ) := by
      rw [mul_lt_iff_lt_one_right rm]; norm_num
    linarith
  obtain ⟨z, z1, z2⟩ := har.div noisePower r hp (by exact_mod_cast hr)
  have z2' : |(z : ℝ) - noisePower / r| ≤ noisePower / r * 2 ^ (-52 : ℤ) := by
    have : ((|z - noisePower / r| : ℚ) : ℝ) ≤ ((noisePower / r * 2 ^ (-52 : ℤ) : ℚ) : ℝ) := by exact_mod_cast z2
    push_cast at this
    exact this
  rw [abs_le] at z2'
  have hd : (0 : ℝ) < noisePower / r := div_pos hpR hr
  have hz : (0 : ℝ) < z := by
    have : (noisePower : ℝ) / r * 2 ^ (-52 : ℤ) < noisePower / r := by
      rw [mul_lt_iff_lt_one_right hd]; norm_num
    linarith
  have t1 := har.toF z (by exact_mod_cast hz)
  have t1' : |((ar.toF (.fin z) : ℚ) : ℝ) - z| ≤ z * 2 ^ (-23 : ℤ) := by
    have : ((|ar.toF (.fin z) - z| : ℚ) : ℝ) ≤ ((z * 2 ^ (-23 : ℤ) : ℚ) : ℝ) := by exact_mod_cast t1
    push_cast at this
    exact this
  rw [abs_le] at t1'
  have hdn : driftNoise ar noisePower m = ar.toF (.fin z) := by
    unfold driftNoise
    rw [har.toD, har.ofInt m (by omega) hm, r1, z1]
  rw [hdn]
  generalize ((ar.toF (.fin z) : ℚ) : ℝ) = y at *
  -- the quotient by the rounded root
  have hq : (noisePower : ℝ) / r ≤ noisePower / √(m : ℝ) * (1 + 2 ^ (-51 : ℤ)) ∧
      (noisePower : ℝ) / √(m : ℝ) * (1 - 2 ^ (-51 : ℤ)) ≤ noisePower / r := by
    constructor
    · rw [div_mul_eq_mul_div, div_le_div_iff₀ hr rm, mul_assoc]
      refine mul_le_mul_of_nonneg_left ?_ hpR.le
      have : √(m : ℝ) * (1 - 2 ^ (-52 : ℤ)) ≤ r := by linarith
      calc √(m : ℝ) ≤ (1 + 2 ^ (-51 : ℤ)) * (√(m : ℝ) * (1 - 2 ^ (-52 : ℤ))) := by
            have : (1 : ℝ) ≤ (1 + 2 ^ (-51 : ℤ)) * (1 - 2 ^ (-52 : ℤ)) := by norm_num
            nlinarith
        _ ≤ _ := mul_le_mul_of_nonneg_left this (by positivity)
    · rw [div_mul_eq_mul_div, div_le_div_iff₀ rm hr, mul_assoc]
      refine mul_le_mul_of_nonneg_left ?_ hpR.le
      have : (r : ℝ) ≤ √(m : ℝ) * (1 + 2 ^ (-52 : ℤ)) := by linarith
      calc (1 - 2 ^ (-51 : ℤ)) * (r : ℝ) ≤ (1 - 2 ^ (-51 : ℤ)) * (√(m : ℝ) * (1 + 2 ^ (-52 : ℤ))) :=
            mul_le_mul_of_nonneg_left this (by norm_num)
        _ ≤ √(m : ℝ) := by
            have : (1 - 2 ^ (-51 : ℤ)) * (1 + 2 ^ (-52 : ℤ)) ≤ (1 : ℝ) := by norm_num
            nlinarith
  have hX : (0 : ℝ) < noisePower / √(m : ℝ) := div_pos hpR rm
  generalize (noisePower : ℝ) / √(m : ℝ) = X at *
  generalize (noisePower : ℝ) / r = Y at *
  generalize (z : ℝ) = Z at *
  norm_num at *
  rw [abs_le]
  constructor <;> linarith

/-- **C155, the noise.** With rounded arithmetic the noise of the lines falls as `C155_smeared_tone_partial`
needs it, for up to `2^19` channels per time step. -/
theorem C155_noise_falls {ar : Arith ℚ Fl} (har : RoundedRoot ar) {noisePower : ℚ} (hp : 0 < noisePower)
    {T : Nat} (hT : 1 ≤ T) {most : Int} (hmost : most ≤ 2 ^ 19) (hTm : T * most ≤ 2 ^ 53) :
    NoiseFalls (fun k => driftNoise ar noisePower (T * k)) most ∧
      ∀ k : Int, 1 ≤ k → k ≤ most → 0 < driftNoise ar noisePower (T * k) := by
  have hTi : (1 : Int) ≤ T := by exact_mod_cast hT
  have hpR : (0 : ℝ) < noisePower := by exact_mod_cast hp
  have hTR : 0 < √(T : ℝ) := Real.sqrt_pos.2 (by exact_mod_cast hT)
  have hclose : ∀ k : Int, 1 ≤ k → k ≤ most →
      |((driftNoise ar noisePower (T * k) : ℚ) : ℝ) - noisePower / √(T : ℝ) / √(k : ℝ)| ≤
        noisePower / √(T : ℝ) / √(k : ℝ) * 2 ^ (-22 : ℤ) := by
    intro k hk hkm
    have := noise_root har hp (m := T * k) (by nlinarith) (by nlinarith)
    rw [Int.cast_mul, Int.cast_natCast, Real.sqrt_mul (by positivity), ← div_div] at this
    exact this
  refine ⟨falls_of_root (div_pos hpR hTR) (by positivity) ?_ hclose, ?_⟩
  · have : (most : ℝ) ≤ 2 ^ 19 := by exact_mod_cast hmost
    calc 8 * (most : ℝ) * 2 ^ (-22 : ℤ) ≤ 8 * 2 ^ 19 * 2 ^ (-22 : ℤ) :=
          mul_le_mul_of_nonneg_right (by linarith) (by positivity)
      _ ≤ 1 := by norm_num
  · intro k hk hkm
    have h := (abs_le.1 (hclose k hk hkm)).1
    have hk0 : 0 < √(k : ℝ) := Real.sqrt_pos.2 (by exact_mod_cast (show (0 : Int) < k by omega))
    have hX : (0 : ℝ) < noisePower / √(T : ℝ) / √(k : ℝ) := div_pos (div_pos hpR hTR) hk0
    have h2 : (noisePower : ℝ) / √(T : ℝ) / √(k : ℝ) * 2 ^ (-22 : ℤ) < noisePower / √(T : ℝ) / √(k : ℝ) := by
      rw [mul_lt_iff_lt_one_right hX]; norm_num
    have : (0 : ℝ) < ((driftNoise ar noisePower (T * k) : ℚ) : ℝ) := by linarith
    exact_mod_cast this

/-- **C155, the noise.** With rounded arithmetic the noise of the lines is as `C155_tone_over_noise_partial` needs
it, for up to `2^17` channels per time step. -/
theorem C155_noise_steady {ar : Arith ℚ Fl} (har : RoundedRoot ar) {noisePower : ℚ} (hp : 0 < noisePower)
    {T : Nat} (hT : 1 ≤ T) {most : Int} (hmost : most ≤ 2 ^ 17) (hTm : T * most ≤ 2 ^ 53) :
    NoiseSteady (fun k => driftNoise ar noisePower (T * k)) most := by
  have hTi : (1 : Int) ≤ T := by exact_mod_cast hT
  have hpR : (0 : ℝ) < noisePower := by exact_mod_cast hp
  have hTR : 0 < √(T : ℝ) := Real.sqrt_pos.2 (by exact_mod_cast hT)
  refine steady_of_root (div_pos hpR hTR) (ε := 2 ^ (-22 : ℤ)) (by positivity) ?_ ?_
  · have : (most : ℝ) ≤ 2 ^ 17 := by exact_mod_cast hmost
    calc 32 * (most : ℝ) * 2 ^ (-22 : ℤ) ≤ 32 * 2 ^ 17 * 2 ^ (-22 : ℤ) :=
          mul_le_mul_of_nonneg_right (by linarith) (by positivity)
      _ ≤ 1 := by norm_num
  · intro k hk hkm
    have := noise_root har hp (m := T * k) (by nlinarith) (by nlinarith)
    rw [Int.cast_mul, Int.cast_natCast, Real.sqrt_mul (by positivity), ← div_div] at this
    exact this

/-! ## A concrete case -/

/-- There are such arithmetics. -/
theorem exists_roundedRoot : ∃ ar : Arith ℚ Fl, RoundedRoot ar := by
  have h : ∀ q : ℚ, ∃ r : ℚ, 0 < q → |(r : ℝ) - √(q : ℝ)| ≤ √(q : ℝ) * 2 ^ (-52 : ℤ) := by
    intro q
    by_cases hq : 0 < q
    · have hs : 0 < √(q : ℝ) := Real.sqrt_pos.2 (by exact_mod_cast hq)
      obtain ⟨r, r1, r2⟩ := exists_rat_btwn (show √(q : ℝ) < √(q : ℝ) + √(q : ℝ) * 2 ^ (-52 : ℤ) by
        have : 0 < √(q : ℝ) * 2 ^ (-52 : ℤ) := by positivity
        linarith)
      exact ⟨r, fun _ => by rw [abs_le]; constructor <;> linarith⟩
    · exact ⟨0, fun h => absurd h hq⟩
  choose root hroot using h
  refine ⟨{ toD := .fin, toF := fun x => match x with | .fin q => q | _ => 0, ofInt := fun m => .fin m,
            add := fun a _ => a, mul := fun a _ => a,
            div := fun a b => match a, b with | .fin x, .fin y => .fin (x / y) | _, _ => .nan,
            abs := id, sqrt := fun a => match a with | .fin q => .fin (root q) | _ => .nan,
            million := .fin 1000000 }, fun _ => rfl, fun _ _ _ => rfl, fun q hq => ⟨root q, rfl, hroot q hq⟩,
    fun x y hx hy => ⟨x / y, rfl, ?_⟩, fun z hz => ?_⟩
  · rw [sub_self, abs_zero]; positivity
  · simp only [sub_self, abs_zero]; positivity

/-- A tone of two channels that moves up by two channels from one time step to the next, with the drifts
0, 1 and 2 searched: the hypotheses are met, and the tone is reported in channel 2 with drift 2. -/
example (R24 : Rounding 24) (R53 : Rounding 53) (hz : Fl → Fl) (junk : Coord → Int) (cc : Channel Fl)
    (ar : Arith ℚ Fl) (har : RoundedRoot ar) :
    ∃ (hs : List (Hit ℚ Fl)) (h : Hit ℚ Fl),
      driftSearch R24 R53 hz ar 0 junk cc
        (denseInput 2 8 (fun t c => if InWindow 2 2 (2 + 2 * t) c then (16 : ℚ) else 0) fun _ _ => 0)
        { low := 0, high := 3, step := 1 } 1 0 ⟨.connectedComponents, 5, 2⟩ = .ok hs ∧ h ∈ hs ∧
      h.startFreqIndex = 2 ∧ h.rateIndex = 2 ∧ ∀ h' ∈ hs, h'.snr ≤ h.snr := by
  obtain ⟨f1, f2⟩ := C155_noise_falls har (noisePower := 1) one_pos (T := 2) (by norm_num) (most := 2)
    (by norm_num) (by norm_num)
  have hr : ∀ i : Nat, (i : Int) < ((3 : Int) - 0).tdiv 1 → 0 ≤ (0 : Int) + i * 1 ∧ (0 : Int) + i * 1 ≤ 2 := by
    intro i hi
    have : ((3 : Int) - 0).tdiv 1 = 3 := rfl
    omega
  refine Exists.imp (fun hs => Exists.imp fun h => fun ⟨e1, e2, e3, e4, _, _, e7⟩ =>
    ⟨e1, e2, e3, e4, fun h' hh' => (e7 h' hh').1⟩) (C155_smeared_tone_partial R24 R53 hz ar 0 junk cc
    (denseInput_holds 2 8 (fun t c => if InWindow 2 2 (2 + 2 * t) c then (16 : ℚ) else 0) fun _ _ => 0) ⟨rfl, rfl⟩
    (ro := { low := 0, high := 3, step := 1 }) (c₀ := 2) (d := 2) (i₀ := 2) (w := 2) (ch := fun t => 2 + 2 * t)
    (p := fun _ => 16) (le_refl 2) (by simp [denseInput]) (by norm_num) rfl ?_ (by decide) rfl ?_
    ⟨by norm_num, by simp [denseInput]⟩ ⟨by norm_num, by simp [denseInput]⟩ ⟨?_⟩ ?_ 1 0 le_rfl ⟨?_, ?_, ?_⟩
    ⟨.connectedComponents, 5, 2⟩ rfl (most := 2) (by norm_num) ?_ f2 f1 le_rfl (by norm_num) ?_)
  · intro i hi
    obtain ⟨a1, a2⟩ := hr i hi
    dsimp only
    rw [abs_of_nonneg a1]
    simp only [denseInput]
    push_cast
    omega
  · exact ⟨by norm_num, .inr (by simp [denseInput]; norm_num)⟩
  · intro t _
    simp only [denseInput]
    push_cast
    rw [show (2 + 2 * (t : ℚ) - (2 + 2 * t / ((2 : ℚ) - 1))) = 0 by ring]
    norm_num
  · intro t ht c hc
    change t < 2 at ht
    simp only [InWindow, denseInput] at hc ⊢
    push_cast at hc ⊢
    omega
  · intro t _ c _ _ h
    exact if_pos h
  · intro t _ c _ _ h
    exact (if_neg h).le
  · intro t _
    norm_num
  · intro i hi
    obtain ⟨a1, a2⟩ := hr i hi
    dsimp only
    rw [abs_of_nonneg a1]
    simp only [denseInput]
    push_cast
    omega
  · have hn := (abs_le.1 (noise_root har (noisePower := 1) one_pos (m := 4) (by norm_num) (by norm_num))).2
    have h4 : √(((4 : Int)) : ℝ) = 2 := by
      rw [show (((4 : Int)) : ℝ) = 2 ^ 2 by norm_num, Real.sqrt_sq (by norm_num)]
    rw [h4] at hn
    have hle : driftNoise ar 1 4 ≤ 1 := by
      have : ((driftNoise ar 1 4 : ℚ) : ℝ) ≤ 1 := by
        norm_num at hn
        linarith
      exact_mod_cast this
    have hpos := f2 2 (by norm_num) le_rfl
    simp only [denseInput, Finset.sum_const, Finset.card_range]
    norm_num at hpos ⊢
    rw [lt_div_iff₀ hpos]
    linarith

/-- The same tone over samples of 0 and 1, of which the noise floor is the mean 1/2. -/
example (R24 : Rounding 24) (R53 : Rounding 53) (hz : Fl → Fl) (junk : Coord → Int) (cc : Channel Fl)
    (ar : Arith ℚ Fl) (har : RoundedRoot ar) :
    ∃ (hs : List (Hit ℚ Fl)) (h : Hit ℚ Fl),
      driftSearch R24 R53 hz ar 0 junk cc
        (denseInput 2 8 (fun t c => if InWindow 2 2 (2 + 2 * t) c then (16 : ℚ) else ((c + t) % 2 : Int)) fun _ _ => 0)
        { low := 0, high := 3, step := 1 } 1 (1 / 2) ⟨.connectedComponents, 5, 2⟩ = .ok hs ∧ h ∈ hs ∧
      h.startFreqIndex = 2 ∧ h.rateIndex = 2 ∧ ∀ h' ∈ hs, h'.snr ≤ h.snr := by
  obtain ⟨f1, f2⟩ := C155_noise_falls har (noisePower := 1) one_pos (T := 2) (by norm_num) (most := 2)
    (by norm_num) (by norm_num)
  have f3 := C155_noise_steady har (noisePower := 1) one_pos (T := 2) (by norm_num) (most := 2)
    (by norm_num) (by norm_num)
  have hr : ∀ i : Nat, (i : Int) < ((3 : Int) - 0).tdiv 1 → 0 ≤ (0 : Int) + i * 1 ∧ (0 : Int) + i * 1 ≤ 2 := by
    intro i hi
    have : ((3 : Int) - 0).tdiv 1 = 3 := rfl
    omega
  refine Exists.imp (fun hs => Exists.imp fun h => fun ⟨e1, e2, e3, e4, _, _, e7⟩ =>
    ⟨e1, e2, e3, e4, fun h' hh' => (e7 h' hh').1⟩) (C155_tone_over_noise_partial R24 R53 hz ar 0 junk cc
    (denseInput_holds 2 8 (fun t c => if InWindow 2 2 (2 + 2 * t) c then (16 : ℚ) else ((c + t) % 2 : Int)) fun _ _ => 0) ⟨rfl, rfl⟩
    (ro := { low := 0, high := 3, step := 1 }) (c₀ := 2) (d := 2) (i₀ := 2) (w := 2) (ch := fun t => 2 + 2 * t)
    (p := fun _ => 16) (le_refl 2) (by simp [denseInput]) (by norm_num) rfl ?_ (by decide) rfl ?_
    ⟨by norm_num, by simp [denseInput]⟩ ⟨by norm_num, by simp [denseInput]⟩ ⟨?_⟩ ?_ 1 (1 / 2) (level := 1) (by norm_num) (by norm_num) ⟨?_, ?_, ?_⟩
    ⟨.connectedComponents, 5, 2⟩ rfl (most := 2) (by norm_num) ?_ f2 f1 f3 (fun t _ => by norm_num) le_rfl (by norm_num) ?_)
  · intro i hi
    obtain ⟨a1, a2⟩ := hr i hi
    dsimp only
    rw [abs_of_nonneg a1]
    simp only [denseInput]
    push_cast
    omega
  · exact ⟨by norm_num, .inr (by simp [denseInput]; norm_num)⟩
  · intro t _
    simp only [denseInput]
    push_cast
    rw [show (2 + 2 * (t : ℚ) - (2 + 2 * t / ((2 : ℚ) - 1))) = 0 by ring]
    norm_num
  · intro t ht c hc
    change t < 2 at ht
    simp only [InWindow, denseInput] at hc ⊢
    push_cast at hc ⊢
    omega
  · intro t _ c _ _ h
    exact if_pos h
  · intro t _ c _ _ h
    refine (if_neg h).le.trans ?_
    exact_mod_cast (show (c + t) % 2 ≤ 1 by omega)
  · intro t _
    norm_num
  · intro i hi
    obtain ⟨a1, a2⟩ := hr i hi
    dsimp only
    rw [abs_of_nonneg a1]
    simp only [denseInput]
    push_cast
    omega
  · have hn := (abs_le.1 (noise_root har (noisePower := 1) one_pos (m := 4) (by norm_num) (by norm_num))).2
    have h4 : √(((4 : Int)) : ℝ) = 2 := by
      rw [show (((4 : Int)) : ℝ) = 2 ^ 2 by norm_num, Real.sqrt_sq (by norm_num)]
    rw [h4] at hn
    have hle : driftNoise ar 1 4 ≤ 1 := by
      have : ((driftNoise ar 1 4 : ℚ) : ℝ) ≤ 1 := by
        norm_num at hn
        linarith
      exact_mod_cast this
    have hpos := f2 2 (by norm_num) le_rfl
    simp only [denseInput, Finset.sum_const, Finset.card_range]
    norm_num at hpos ⊢
    rw [lt_div_iff₀ hpos]
    linarith

end Bliss.Hit
