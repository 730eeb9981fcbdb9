import Verif.Gpu.ToneFloat
import Verif.Hit.Smear

/-!
# Tones that drift several channels per time step, on the GPU (C156)

The GPU counterpart of C155. On the GPU a cell is the mean of those samples of its line that are in the
band, and the noise is that of the whole line.
-/

namespace Bliss.Gpu

open Bliss.Drift Bliss.Float Bliss.Comp Bliss.Hit

/-! ## Lines -/

/-- The samples of a line at time `t`. -/
def bandStep (N D : Nat) (d : Int) (t : Nat) (x : Int) : List (Nat × Int) :=
  (List.range D).filterMap fun (k : Nat) =>
    if 0 ≤ binChannel d x k ∧ binChannel d x k < N then some (t, binChannel d x k) else none

theorem bandPath_eq (N T D : Nat) (d : Int) (off : Nat → Int) (c : Int) :
    bandPath N T (decide (0 ≤ d)) D off c = (List.range T).flatMap fun t => bandStep N D d t (c + off t) := by
  unfold bandPath bandStep
  congr 1
  funext t
  congr 1
  funext k
  have : (c + if decide (0 ≤ d) = true then off t + (k : Int) else off t - k) = binChannel d (c + off t) k := by
    unfold binChannel
    by_cases h : 0 ≤ d <;> simp [h] <;> ring
  simp only [this]

theorem mem_bandStep {N D : Nat} {d : Int} {t : Nat} {x : Int} {s : Nat × Int} :
    s ∈ bandStep N D d t x ↔
      s.1 = t ∧ 0 ≤ s.2 ∧ s.2 < N ∧ ∃ k < D, s.2 = binChannel d x k := by
  unfold bandStep
  rw [List.mem_filterMap]
  constructor
  · rintro ⟨k, hk, h⟩
    split at h
    · next hb =>
      obtain rfl := Option.some.inj h
      exact ⟨rfl, hb.1, hb.2, k, List.mem_range.1 hk, rfl⟩
    · cases h
  · rintro ⟨h1, h2, h3, k, hk, h4⟩
    refine ⟨k, List.mem_range.2 hk, ?_⟩
    rw [← h4, if_pos ⟨h2, h3⟩, ← h1]

/-- Is the sample in the tone? -/
def inTone (d : Int) (w : Nat) (ch : Nat → Int) (s : Nat × Int) : Bool := decide (InWindow d w (ch s.1) s.2)

theorem count_bandStep_le (N D : Nat) (d' : Int) (t : Nat) (x : Int) (d : Int) (w : Nat) (ch : Nat → Int) :
    (bandStep N D d' t x).countP (inTone d w ch) ≤ overlap d w (ch t) d' D x := by
  unfold bandStep overlap
  induction D with
  | zero => simp
  | succ D ih =>
    rw [List.range_succ, List.filterMap_append, List.countP_append, Finset.range_add_one, Finset.filter_insert]
    by_cases hw : InWindow d w (ch t) (binChannel d' x D)
    · rw [if_pos hw, Finset.card_insert_of_notMem (by simp)]
      refine Nat.add_le_add ih ?_
      refine (List.countP_le_length).trans ((List.length_filterMap_le _ _).trans ?_)
      simp
    · rw [if_neg hw]
      have : ([D].filterMap fun (k : Nat) => if 0 ≤ binChannel d' x k ∧ binChannel d' x k < N then
          some (t, binChannel d' x k) else none).countP (inTone d w ch) = 0 := by
        rw [List.countP_eq_zero]
        intro s hs
        rw [List.mem_filterMap] at hs
        obtain ⟨k, hk, h⟩ := hs
        rw [List.mem_singleton] at hk
        subst hk
        split at h
        · obtain rfl := Option.some.inj h
          simpa [inTone] using hw
        · cases h
      rw [this]
      exact ih

theorem length_bandStep {N D : Nat} {d : Int} {t : Nat} {x : Int}
    (h : ∀ k < D, 0 ≤ binChannel d x k ∧ binChannel d x k < N) : (bandStep N D d t x).length = D := by
  unfold bandStep
  have : ∀ E ≤ D, ((List.range E).filterMap fun (k : Nat) =>
      if 0 ≤ binChannel d x k ∧ binChannel d x k < N then some (t, binChannel d x k) else none).length = E := by
    intro E hE
    induction E with
    | zero => simp
    | succ E ih =>
      rw [List.range_succ, List.filterMap_append, List.length_append, ih (by omega)]
      simp [h E (by omega)]
  exact this D le_rfl

/-- At one time step: if the tone is away from the band edges, the share of a line that is in the tone is
at most the ratio of the widths. -/
theorem step_share {N D : Nat} {d' : Int} {t : Nat} {x : Int} {d : Int} {w : Nat} {ch : Nat → Int}
    (hb : ∀ c : Int, low d w (ch t) - D < c → c < low d w (ch t) + w + D → 0 ≤ c ∧ c < N) :
    D * (bandStep N D d' t x).countP (inTone d w ch) ≤ min w D * (bandStep N D d' t x).length := by
  rcases Nat.eq_zero_or_pos ((bandStep N D d' t x).countP (inTone d w ch)) with h | h
  · rw [h]; simp
  · obtain ⟨s, hs, hst⟩ := List.countP_pos_iff.1 h
    obtain ⟨h1, h2, h3, k, hk, h4⟩ := mem_bandStep.1 hs
    have hin : InWindow d w (ch t) s.2 := by
      rw [← h1]
      simpa [inTone] using hst
    rw [inWindow_iff] at hin
    have hfull : (bandStep N D d' t x).length = D := by
      refine length_bandStep fun j hj => ?_
      refine hb _ ?_ ?_ <;> rw [h4] at hin <;> unfold binChannel at hin ⊢ <;> split at hin <;>
        rename_i hd' <;> simp only [hd', if_true, if_false] <;> omega
    rw [hfull, Nat.mul_comm]
    refine Nat.mul_le_mul_right _ (le_min ?_ ?_)
    · exact (count_bandStep_le N D d' t x d w ch).trans (overlap_le_width _ _ _ _ _ _)
    · exact (count_bandStep_le N D d' t x d w ch).trans (overlap_le_bins _ _ _ _ _ _)

theorem flatMap_share {l : List Nat} {f : Nat → List (Nat × Int)} {p : Nat × Int → Bool} {a b : Nat}
    (h : ∀ t ∈ l, a * (f t).countP p ≤ b * (f t).length) :
    a * (l.flatMap f).countP p ≤ b * (l.flatMap f).length := by
  induction l with
  | nil => simp
  | cons t l ih =>
    rw [List.flatMap_cons, List.countP_append, List.length_append, Nat.mul_add, Nat.mul_add]
    exact Nat.add_le_add (h t (by simp)) (ih fun t ht => h t (by simp [ht]))

/-! ## Cells -/

section
variable {F : Type} [Zero F] [Add F] [Sub F] [Div F] [IntCast F] [LT F] [DecidableLT F] [OfNat F 2]

/-- What the search sees of a smeared tone on the GPU, in any arithmetic: the SNR of each cell is that of the
mean over its line; the line of the tone's cell is in the tone, and the share of any other line in the tone
is at most the ratio of the widths, and less than that for lines of the same width. -/
theorem smeared_paths (R24 D24 : Rounding 24) (D53 : Rounding 53) (hz : Fl → Fl)
    (ar : Arith F Fl) {inp : Input F} {grid : Nat → Int → F} {mask : Nat → Int → UInt8}
    (hin : Holds inp grid mask) (hview : DenseViews inp) {ro : RateOptions}
    (hT : 2 ≤ inp.timeSteps) (hT' : (inp.timeSteps : Int) - 1 ≤ 2 ^ 24) (hstep : ro.step ≠ 0)
    (hdes : ro.desmear = true) {c₀ d : Int} {i₀ w : Nat} {most : Int} (hmost : 1 ≤ most ∧ most ≤ 2 ^ 24)
    (hrange : ∀ i : Nat, (i : Int) < (ro.high - ro.low).tdiv ro.step →
      3 * |ro.low + i * ro.step| < 2 ^ 22 ∧ |ro.low + i * ro.step| ≤ most * ((inp.timeSteps : Int) - 1) ∧
        2 * most ≤ c₀ + (ro.low + i * ro.step) ∧ c₀ + (ro.low + i * ro.step) + 2 * most ≤ inp.numChannels)
    (hmiddle : 2 * most ≤ c₀ ∧ c₀ + 2 * most ≤ inp.numChannels)
    (hi₀ : (i₀ : Int) < (ro.high - ro.low).tdiv ro.step)
    (hd : d = ro.low + i₀ * ro.step) (hw : ChannelsPerStep inp.timeSteps d w) {ch : Nat → Int}
    (hline : FloatToneLine inp.timeSteps c₀ d ch) (noisePower floor : F) (o : Options F) :
    ∃ rates, computeDrifts R24 hz inp.timeSteps ro = .ok rates ∧
      (rates.length : Int) = (ro.high - ro.low).tdiv ro.step ∧
      ∃ (line : Coord → List (Nat × Int)) (bins : Coord → Nat),
        (bins ((i₀ : Int), c₀) = w ∧ ∀ y ∈ line ((i₀ : Int), c₀), inTone d w ch y = true) ∧
        (∀ x : Coord, 0 ≤ x.1 → x.1 < rates.length → 0 ≤ x.2 → x.2 < inp.numChannels →
          1 ≤ bins x ∧ (bins x : Int) ≤ most ∧ line x ≠ [] ∧ (line x).length ≤ inp.timeSteps * bins x ∧
          (∀ y ∈ line x, y.1 < inp.timeSteps ∧ 0 ≤ y.2 ∧ y.2 < inp.numChannels) ∧
          bins x * (line x).countP (inTone d w ch) ≤ min w (bins x) * (line x).length ∧
          (x ≠ ((i₀ : Int), c₀) → bins x = w → (line x).countP (inTone d w ch) < (line x).length)) ∧
        ∀ (G : Nat) (s' : Mem IAddr (ICell F)), 0 < G →
          Completes ProgStep (gpuIntegrate (F := F) (cudaOps D24 D53) inp.numChannels inp.timeSteps
            rates G) (integrateMem inp rates.length) s' →
          ∀ x : Coord, 0 ≤ x.1 → x.1 < rates.length → 0 ≤ x.2 → x.2 < inp.numChannels →
            (toSearch ar (planeOf inp (gpuAcc s') rates) noisePower floor o).snr x =
              (pathMean grid (line x) - floor) / driftNoise ar noisePower (inp.timeSteps * bins x) := by
  obtain ⟨rates, off, h1, h2, h3, h4⟩ := driftSetup_of (N := inp.numChannels) (o := ro)
    (B := 1398102) R24 (narrow D24 D53) hz (by norm_num) hT hT'
    (fun d hd => C06_cuda_geometry_partial R24 D24 D53 (by omega) hT hT') hstep (by omega)
    (fun i hi => by have := (hrange i hi).1; omega)
  set T := inp.timeSteps with hTdef
  set N := inp.numChannels with hNdef
  let rate : Coord → Rate Fl := fun x => rates[x.1.toNat]?.getD ⟨0, .nan, .nan, 0, 1⟩
  have hbins : ∀ (i : Nat) (r : Rate Fl), rates[i]? = some r → 1 ≤ r.desmear ∧ r.desmear ≤ most := by
    intro i r hr
    have hil : i < rates.length := by
      rw [List.getElem?_eq_some_iff] at hr; exact hr.1
    have hrg := hrange i (by omega)
    exact rate_bins_le h1 hT hT' hr (by omega) hmost.1 hmost.2 hrg.2.1
  have hi₀l : i₀ < rates.length := by omega
  have hget₀ := List.getElem?_eq_getElem hi₀l
  obtain ⟨_, _, _, g2, _, _, g4⟩ := h4 i₀ _ hget₀
  rw [← hd] at g2
  rw [g2] at g4
  have hw₀ : rates[i₀].desmear = w :=
    rate_bins h1 hdes hT hT' hget₀ (by have := hrange i₀ hi₀; omega) (by rw [← hd]; exact hw)
  obtain ⟨w1, w2⟩ := hbins i₀ _ hget₀
  rw [hw₀] at w1 w2
  have hch : ∀ t < T, ch t = c₀ + off i₀ t := by
    intro t ht
    have a1 := hline.near t ht
    have a2 := g4.close t ht
    have a3 : |((ch t - (c₀ + off i₀ t) : Int) : ℚ)| < 1 := by
      have e : ((ch t - (c₀ + off i₀ t) : Int) : ℚ) =
          ((ch t : ℚ) - (c₀ + d * t / ((T : ℚ) - 1))) -
            ((off i₀ t : ℚ) - d * t / ((T : ℚ) - 1)) := by
        push_cast; ring
      rw [e]
      have a4 := abs_sub ((ch t : ℚ) - (c₀ + d * t / ((T : ℚ) - 1)))
        ((off i₀ t : ℚ) - d * t / ((T : ℚ) - 1))
      have a5 : |(d : ℚ)| * (2 ^ (-23 : ℤ) + 2 ^ (-22 : ℤ)) ≤ |(d : ℚ)| * 2 ^ (-21 : ℤ) :=
        mul_le_mul_of_nonneg_left (by norm_num) (abs_nonneg _)
      have a6 := add_lt_add_of_lt_of_le a1 (a2.trans (add_le_add_right a5 _))
      exact lt_of_le_of_lt a4 (lt_of_lt_of_eq a6 (by ring))
    have a4 : |ch t - (c₀ + off i₀ t)| < 1 := by exact_mod_cast a3
    rw [Int.abs_lt_one_iff] at a4
    omega
  have hend := hrange i₀ hi₀
  rw [← hd] at hend
  have haway : ∀ t < T, ∀ D : Nat, (D : Int) ≤ most → ∀ c : Int, low d w (ch t) - D < c →
      c < low d w (ch t) + w + D → 0 ≤ c ∧ c < N := by
    intro t ht D hD c hc1 hc2
    have hb := g4.inside t ht
    rw [hch t ht] at hc1 hc2
    unfold low at hc1 hc2
    split at hc1
    · next h0 =>
      rw [if_pos h0] at hc2
      rw [min_eq_left h0, max_eq_right h0] at hb
      omega
    · next h0 =>
      rw [if_neg h0] at hc2
      rw [min_eq_right (by omega), max_eq_left (by omega)] at hb
      omega
  refine ⟨rates, h1, h2, fun x => (List.range T).flatMap fun t =>
    bandStep N (rate x).desmear.toNat (rate x).span t (x.2 + off x.1.toNat t), fun x => (rate x).desmear.toNat,
    ⟨?_, ?_⟩, ?_, ?_⟩
  · simp only [rate, Int.toNat_natCast, hget₀, Option.getD_some, hw₀]
  · intro x hx
    simp only [rate, Int.toNat_natCast, hget₀, Option.getD_some, hw₀, g2] at hx
    obtain ⟨t, ht, hx⟩ := List.mem_flatMap.1 hx
    rw [List.mem_range] at ht
    obtain ⟨e1, e2, e3, k, hk, e4⟩ := mem_bandStep.1 hx
    simp only [inTone, decide_eq_true_eq]
    rw [e1, e4, hch t ht]
    unfold InWindow binChannel
    split <;> omega
  · rintro ⟨xi, c⟩ x1 x2 x3 x4
    obtain ⟨i, rfl⟩ := Int.eq_ofNat_of_zero_le x1
    dsimp only at x2 x3 x4
    have hil : i < rates.length := by omega
    have hget := List.getElem?_eq_getElem hil
    obtain ⟨_, _, _, k2, _, _, k4⟩ := h4 i _ hget
    obtain ⟨b1, b2⟩ := hbins i _ hget
    obtain ⟨D, hD⟩ := Int.eq_ofNat_of_zero_le (show 0 ≤ rates[i].desmear by omega)
    have hrg := hrange i (by omega)
    rw [← k2] at hrg
    simp only [rate, Int.toNat_natCast, hget, Option.getD_some, hD]
    rw [hD] at b1 b2
    generalize hspan : rates[i].span = e at *
    set L := (List.range T).flatMap fun t => bandStep N D e t (c + off i t) with hL
    have hfirst : ((0 : Nat), (c : Int)) ∈ bandStep N D e 0 (c + off i 0) := by
      refine mem_bandStep.2 ⟨rfl, x3, x4, 0, by omega, ?_⟩
      rw [k4.start]
      unfold binChannel
      split <;> simp
    have hmem0 : ((0 : Nat), (c : Int)) ∈ L := List.mem_flatMap.2 ⟨0, List.mem_range.2 (by omega), hfirst⟩
    have hLne : L ≠ [] := List.ne_nil_of_mem hmem0
    refine ⟨by omega, b2, hLne, ?_, ?_, flatMap_share fun t ht => step_share (haway t (List.mem_range.1 ht) D b2), ?_⟩
    · rw [hL, List.length_flatMap]
      have : ∀ l : List Nat, (l.map fun t => (bandStep N D e t (c + off i t)).length).sum ≤ l.length * D := by
        intro l
        induction l with
        | nil => simp
        | cons t l ih =>
          rw [List.map_cons, List.sum_cons, List.length_cons, Nat.succ_mul]
          have : (bandStep N D e t (c + off i t)).length ≤ D :=
            (List.length_filterMap_le _ _).trans (by simp)
          omega
      have := this (List.range T)
      rwa [List.length_range] at this
    · intro y hy
      obtain ⟨t, ht, hy⟩ := List.mem_flatMap.1 hy
      rw [List.mem_range] at ht
      obtain ⟨e1, e2, e3, _⟩ := mem_bandStep.1 hy
      exact ⟨by omega, e2, e3⟩
    · intro hne hDw
      by_contra hge
      have hcount : L.countP (inTone d w ch) = L.length := le_antisymm List.countP_le_length (by omega)
      have hall := List.countP_eq_length.1 hcount
      have hin : ∀ t < T, ∀ y ∈ bandStep N D e t (c + off i t), InWindow d w (ch t) y.2 := by
        intro t ht y hy
        have := hall y (List.mem_flatMap.2 ⟨t, List.mem_range.2 ht, hy⟩)
        rw [← (mem_bandStep.1 hy).1]
        simpa [inTone] using this
      have hlow : ∀ t < T, (∀ k < D, 0 ≤ binChannel e (c + off i t) k ∧ binChannel e (c + off i t) k < N) →
          low d w (ch t) = low e w (c + off i t) := by
        intro t ht hb
        refine overlap_full (by omega) ?_
        unfold overlap
        rw [Finset.filter_true_of_mem, Finset.card_range]
        intro k hk
        rw [Finset.mem_range] at hk
        have := hin t ht (t, binChannel e (c + off i t) k)
          (mem_bandStep.2 ⟨rfl, (hb k (by omega)).1, (hb k (by omega)).2, k, by omega, rfl⟩)
        exact this
      have hc0 := hin 0 (by omega) _ hfirst
      rw [inWindow_iff, hch 0 (by omega), g4.start] at hc0
      have hband : ∀ t < T, ∀ k < D, 0 ≤ binChannel e (c + off i t) k ∧ binChannel e (c + off i t) k < N := by
        intro t ht k hk
        have hb := k4.inside t ht
        unfold low at hc0
        unfold binChannel
        rcases le_or_gt 0 e with he | he
        · rw [min_eq_left he, max_eq_right he] at hb
          rw [if_pos he]
          split at hc0 <;> omega
        · rw [min_eq_right (by omega), max_eq_left (by omega)] at hb
          rw [if_neg (by omega)]
          split at hc0 <;> omega
      have s0 := hlow 0 (by omega) (hband 0 (by omega))
      have s1 := hlow (T - 1) (by omega) (hband (T - 1) (by omega))
      rw [hch 0 (by omega), k4.start, g4.start] at s0
      rw [hch (T - 1) (by omega), k4.stop, g4.stop] at s1
      have hde : d = e := by
        unfold low at s0 s1
        split_ifs at s0 s1 <;> omega
      have hcc : c = c₀ := by
        rw [← hde] at s0
        unfold low at s0
        split_ifs at s0 <;> omega
      rw [k2, hd] at hde
      have hmul : ((i : Int) - i₀) * ro.step = 0 := by
        rw [sub_mul]; omega
      rcases mul_eq_zero.1 hmul with h | h
      · exact hne (by rw [hcc, show (i : Int) = i₀ by omega])
      · exact hstep h
  · rintro G s' hG hs' ⟨xi, c⟩ x1 x2 x3 x4
    obtain ⟨i, rfl⟩ := Int.eq_ofNat_of_zero_le x1
    obtain ⟨c, rfl⟩ := Int.eq_ofNat_of_zero_le x3
    dsimp only at x2 x3 x4
    have hcells := ((C81_gpu_drift_plane hin hview (ops := cudaOps D24 D53) h3 hG).2.2.2 s' hs').1
    have hil : i < rates.length := by omega
    have hr := List.getElem?_eq_getElem hil
    have hv := (hcells i _ hr c (by omega)).1
    have hsign : (cudaOps D24 D53).nonneg rates[i].slope = decide (0 ≤ rates[i].span) := (h4 i _ hr).2.1
    rw [hsign, bandPath_eq] at hv
    have hb := (hbins i _ hr).1
    have hnn : ((rates[i].desmear.toNat : Nat) : Int) = rates[i].desmear := Int.toNat_of_nonneg (by omega)
    simp only [rate, Int.toNat_natCast, hr, Option.getD_some, hnn]
    exact snr_cell (ar := ar) (noisePower := noisePower) (floor := floor) (o := o) (inp := inp)
      (a := gpuAcc s') hr (c := c) (v := _) (by
        change (s' (IArr.plane, (i : Int) * (N : Int) + (c : Int))).bind Sum.getLeft? = _
        rw [hv]
        rfl)

end

section
variable {F : Type} [Field F] [LinearOrder F] [IsStrictOrderedRing F]

theorem sum_share {grid : Nat → Int → F} {floor P : F} {p : Nat × Int → Bool} {l : List (Nat × Int)}
    (h : ∀ s ∈ l, grid s.1 s.2 ≤ floor + if p s then P - floor else 0) (x : F) :
    l.foldl (fun acc s => acc + grid s.1 s.2) x ≤ x + (l.length * floor + l.countP p * (P - floor)) := by
  induction l generalizing x with
  | nil => simp
  | cons s l ih =>
    rw [List.foldl_cons]
    refine (ih (fun s hs => h s (by simp [hs])) _).trans ?_
    have := h s (by simp)
    rw [List.length_cons, List.countP_cons]
    by_cases hp : p s = true
    · simp only [hp, if_true] at this ⊢
      push_cast
      linarith
    · simp only [hp] at this ⊢
      push_cast
      simp only [Bool.false_eq_true, if_false, add_zero] at this ⊢
      linarith

theorem sum_const {grid : Nat → Int → F} {P : F} {l : List (Nat × Int)} (h : ∀ s ∈ l, grid s.1 s.2 = P) (x : F) :
    l.foldl (fun acc s => acc + grid s.1 s.2) x = x + l.length * P := by
  induction l generalizing x with
  | nil => simp
  | cons s l ih =>
    rw [List.foldl_cons, ih (fun s hs => h s (by simp [hs])), h s (by simp), List.length_cons]
    push_cast
    ring

/-- The comparison of a line of `M` samples, `O` of them in the tone, with the tone's, over a background `g` above
the noise floor. -/
theorem mean_weaker {M O D w : Nat} (hM : 0 < M) (hD : 1 ≤ D) (hshare : D * O ≤ min w D * M)
    (hsame : D = w → O < M) {n : Int → F} (hw0 : 0 < n w) (hD0 : 0 < n D) {q g : F} (hq : 0 < q) (hg : 0 ≤ g)
    (hless : D < w → n w < n D) (hwide : w < D → (w * q + g * D) * n w < (q + g) * (D * n D)) :
    (O * q / M + g) / n D < (q + g) / n w := by
  have hMF : (0 : F) < M := by exact_mod_cast hM
  have hDF : (0 : F) < D := by exact_mod_cast hD
  have key : ((O : F) * q + g * M) * n w < (q + g) * (M * n D) := by
    rcases lt_trichotomy D w with hlt | heq | hgt
    · rw [min_eq_right hlt.le] at hshare
      have hOM : (O : F) ≤ M := by exact_mod_cast Nat.le_of_mul_le_mul_left hshare hD
      have h1 := mul_le_mul_of_nonneg_right hOM hq.le
      calc _ ≤ (M * q + g * M) * n w := mul_le_mul_of_nonneg_right (by linarith) hw0.le
        _ = (q + g) * M * n w := by ring
        _ < (q + g) * M * n D := mul_lt_mul_of_pos_left (hless hlt) (mul_pos (by linarith) hMF)
        _ = _ := by ring
    · have hOM : (O : F) < M := by exact_mod_cast hsame heq
      have h1 := mul_lt_mul_of_pos_right hOM hq
      rw [heq]
      calc _ < (M * q + g * M) * n w := mul_lt_mul_of_pos_right (by linarith) hw0
        _ = _ := by ring
    · rw [min_eq_left hgt.le] at hshare
      have hOM : (D : F) * O ≤ w * M := by exact_mod_cast hshare
      refine lt_of_mul_lt_mul_left ?_ hDF.le
      calc (D : F) * ((O * q + g * M) * n w) = (D * O * q + g * D * M) * n w := by ring
        _ ≤ (w * M * q + g * D * M) * n w :=
          mul_le_mul_of_nonneg_right (add_le_add_left (mul_le_mul_of_nonneg_right hOM hq.le) _) hw0.le
        _ = M * ((w * q + g * D) * n w) := by ring
        _ < M * ((q + g) * (D * n D)) := mul_lt_mul_of_pos_left (hwide hgt) hMF
        _ = _ := by ring
  rw [div_add' _ _ _ hMF.ne', div_div, div_lt_div_iff₀ (mul_pos hMF hD0) hw0]
  exact key

/-- The drift plane of a smeared tone over a background of at most `level`, as the GPU computes it, in terms of the comparison with lines of other
widths. -/
theorem smeared_gpu_cells (R24 D24 : Rounding 24) (D53 : Rounding 53) (hz : Fl → Fl)
    (ar : Arith F Fl) {inp : Input F} {grid : Nat → Int → F} {mask : Nat → Int → UInt8}
    (hin : Holds inp grid mask) (hview : DenseViews inp) {ro : RateOptions}
    (hT : 2 ≤ inp.timeSteps) (hT' : (inp.timeSteps : Int) - 1 ≤ 2 ^ 24) (hstep : ro.step ≠ 0)
    (hdes : ro.desmear = true) {c₀ d : Int} {i₀ w : Nat} {most : Int} (hmost : 1 ≤ most ∧ most ≤ 2 ^ 24)
    (hrange : ∀ i : Nat, (i : Int) < (ro.high - ro.low).tdiv ro.step →
      3 * |ro.low + i * ro.step| < 2 ^ 22 ∧ |ro.low + i * ro.step| ≤ most * ((inp.timeSteps : Int) - 1) ∧
        2 * most ≤ c₀ + (ro.low + i * ro.step) ∧ c₀ + (ro.low + i * ro.step) + 2 * most ≤ inp.numChannels)
    (hmiddle : 2 * most ≤ c₀ ∧ c₀ + 2 * most ≤ inp.numChannels)
    (hd : d = ro.low + i₀ * ro.step) (hw : ChannelsPerStep inp.timeSteps d w) {ch : Nat → Int}
    (hline : FloatToneLine inp.timeSteps c₀ d ch) {P floor level : F}
    (hle : floor ≤ level) (htone : SmearedTone inp.numChannels inp.timeSteps grid d w ch level fun _ => P)
    (noisePower : F) (o : Options F)
    (hnoise : ∀ k : Int, 1 ≤ k → k ≤ most → 0 < driftNoise ar noisePower (inp.timeSteps * k))
    (hless : ∀ D : Nat, 1 ≤ D → D < w →
      driftNoise ar noisePower (inp.timeSteps * w) < driftNoise ar noisePower (inp.timeSteps * D))
    (hwide : ∀ D : Nat, w < D → D ≤ most →
      (w * (P - level) + (level - floor) * D) * driftNoise ar noisePower (inp.timeSteps * w) <
        (P - level + (level - floor)) * (D * driftNoise ar noisePower (inp.timeSteps * D)))
    (hi₀ : (i₀ : Int) < (ro.high - ro.low).tdiv ro.step) :
    ∃ rates, computeDrifts R24 hz inp.timeSteps ro = .ok rates ∧
      (rates.length : Int) = (ro.high - ro.low).tdiv ro.step ∧
      ∀ (G : Nat) (s' : Mem IAddr (ICell F)), 0 < G →
        Completes ProgStep (gpuIntegrate (F := F) (cudaOps D24 D53) inp.numChannels inp.timeSteps
          rates G) (integrateMem inp rates.length) s' →
        let s := toSearch ar (planeOf inp (gpuAcc s') rates) noisePower floor o
        s.snr ((i₀ : Int), c₀) = (P - floor) / driftNoise ar noisePower (inp.timeSteps * w) ∧
        ∀ x, s.grid.has x → x ≠ ((i₀ : Int), c₀) → s.snr x < s.snr ((i₀ : Int), c₀) := by
  obtain ⟨rates, h1, h2, line, bins, ⟨ho1, ho2⟩, hl, hsnr⟩ := smeared_paths R24 D24 D53 hz ar hin hview hT hT' hstep
    hdes hmost hrange hmiddle (by omega) hd hw hline noisePower floor o
  refine ⟨rates, h1, h2, fun G s' hG hs' => ?_⟩
  intro s
  have hcell := hsnr G s' hG hs'
  have hdr : (s.grid.drifts : Int) = rates.length := rfl
  have hchn : (s.grid.chans : Int) = inp.numChannels := rfl
  have hq : 0 < P - level := sub_pos.2 (htone.strong 0 (by omega))
  have hx₀ : s.grid.has ((i₀ : Int), c₀) := by
    refine ⟨?_, ?_, ?_, ?_⟩ <;> simp only [hdr, hchn] <;> omega
  have hin' : ∀ y : Nat × Int, y.1 < inp.timeSteps → 0 ≤ y.2 → y.2 < inp.numChannels →
      inTone d w ch y = true → grid y.1 y.2 = P := by
    intro y y1 y2 y3 hy
    exact htone.inside _ y1 _ y2 y3 (by simpa [inTone] using hy)
  -- the tone's cell
  obtain ⟨w1, w2, o1, o2, o3, _, _⟩ := hl _ hx₀.1 (by have := hx₀.2.1; omega) hx₀.2.2.1 hx₀.2.2.2
  rw [ho1] at w1 w2
  have hown : s.snr ((i₀ : Int), c₀) = (P - floor) / driftNoise ar noisePower (inp.timeSteps * w) := by
    rw [hcell _ hx₀.1 (by have := hx₀.2.1; omega) hx₀.2.2.1 hx₀.2.2.2, ho1]
    congr 2
    unfold pathMean
    rw [if_neg o1, sum_const (P := P) (fun y hy => hin' y (o3 y hy).1 (o3 y hy).2.1 (o3 y hy).2.2 (ho2 y hy)), zero_add,
      Int.cast_natCast, mul_div_cancel_left₀]
    have := List.length_pos_of_ne_nil o1
    exact_mod_cast this.ne'
  have hweak : ∀ x, s.grid.has x → x ≠ ((i₀ : Int), c₀) → s.snr x < s.snr ((i₀ : Int), c₀) := by
    rintro x ⟨x1, x2, x3, x4⟩ hne
    rw [hdr] at x2
    rw [hchn] at x4
    obtain ⟨b1, b2, l1, l2, l3, l4, l5⟩ := hl x x1 x2 x3 x4
    rw [hown, hcell x x1 x2 x3 x4]
    have hM : 0 < (line x).length := List.length_pos_of_ne_nil l1
    have hMF : (0 : F) < ((line x).length : F) := by exact_mod_cast hM
    have hsum := sum_share (grid := grid) (floor := level) (P := P) (p := inTone d w ch) (l := line x) (by
      intro y hy
      obtain ⟨e1, e2, e3⟩ := l3 y hy
      by_cases hin : inTone d w ch y = true
      · rw [hin' y e1 e2 e3 hin, if_pos hin]
        linarith
      · rw [if_neg hin, add_zero]
        exact htone.outside _ e1 _ e2 e3 (by simpa [inTone] using hin)) 0
    have hlt := mean_weaker (n := fun k => driftNoise ar noisePower (inp.timeSteps * k)) (q := P - level)
      (g := level - floor) hM b1 l4 (l5 hne) (hnoise w (by omega) (by omega)) (hnoise (bins x) (by omega) (by omega))
      hq (sub_nonneg.2 hle) (hless _ b1) (fun h => hwide _ h b2)
    rw [sub_add_sub_cancel] at hlt
    refine lt_of_le_of_lt ?_ hlt
    refine div_le_div_of_nonneg_right ?_ (hnoise (bins x) (by omega) (by omega)).le
    unfold pathMean
    rw [if_neg l1, Int.cast_natCast, sub_le_iff_le_add, add_assoc, sub_add_cancel, div_add' _ _ _ hMF.ne',
      div_le_div_iff_of_pos_right hMF]
    rw [zero_add] at hsum
    linarith
  exact ⟨hown, hweak⟩

/-- A smeared tone on the GPU over a background of at most `level`, in terms of the comparison with lines of other
widths. -/
theorem smeared_gpu_level (R24 D24 : Rounding 24) (D53 : Rounding 53) (hz : Fl → Fl)
    (ar : Arith F Fl) {inp : Input F} {grid : Nat → Int → F} {mask : Nat → Int → UInt8}
    (hin : Holds inp grid mask) (hview : DenseViews inp) {ro : RateOptions}
    (hT : 2 ≤ inp.timeSteps) (hT' : (inp.timeSteps : Int) - 1 ≤ 2 ^ 24) (hstep : ro.step ≠ 0)
    (hdes : ro.desmear = true) {c₀ d : Int} {i₀ w : Nat} {most : Int} (hmost : 1 ≤ most ∧ most ≤ 2 ^ 24)
    (hrange : ∀ i : Nat, (i : Int) < (ro.high - ro.low).tdiv ro.step →
      3 * |ro.low + i * ro.step| < 2 ^ 22 ∧ |ro.low + i * ro.step| ≤ most * ((inp.timeSteps : Int) - 1) ∧
        2 * most ≤ c₀ + (ro.low + i * ro.step) ∧ c₀ + (ro.low + i * ro.step) + 2 * most ≤ inp.numChannels)
    (hmiddle : 2 * most ≤ c₀ ∧ c₀ + 2 * most ≤ inp.numChannels)
    (hd : d = ro.low + i₀ * ro.step) (hw : ChannelsPerStep inp.timeSteps d w) {ch : Nat → Int}
    (hline : FloatToneLine inp.timeSteps c₀ d ch) {P floor level : F}
    (hle : floor ≤ level) (htone : SmearedTone inp.numChannels inp.timeSteps grid d w ch level fun _ => P)
    (noisePower : F) (o : Options F)
    (hnoise : ∀ k : Int, 1 ≤ k → k ≤ most → 0 < driftNoise ar noisePower (inp.timeSteps * k))
    (hless : ∀ D : Nat, 1 ≤ D → D < w →
      driftNoise ar noisePower (inp.timeSteps * w) < driftNoise ar noisePower (inp.timeSteps * D))
    (hwide : ∀ D : Nat, w < D → D ≤ most →
      (w * (P - level) + (level - floor) * D) * driftNoise ar noisePower (inp.timeSteps * w) <
        (P - level + (level - floor)) * (D * driftNoise ar noisePower (inp.timeSteps * D)))
    (hdist : 2 ≤ o.dist) (hrow : o.dist ≤ i₀ ∧ i₀ + o.dist ≤ (ro.high - ro.low).tdiv ro.step)
    (hcol : o.dist ≤ c₀ ∧ c₀ + o.dist ≤ inp.numChannels) (hthr : 0 ≤ o.thr)
    (habove : o.thr < (P - floor) / driftNoise ar noisePower (inp.timeSteps * w)) :
    ∃ rates, computeDrifts R24 hz inp.timeSteps ro = .ok rates ∧
      ∀ (G : Nat) (s' : Mem IAddr (ICell F)), 0 < G →
        Completes ProgStep (gpuIntegrate (F := F) (cudaOps D24 D53) inp.numChannels inp.timeSteps
          rates G) (integrateMem inp rates.length) s' →
        ∀ (G' : Nat) (stale : Bool) (out : List (GpuHit F)), 0 < G' →
          Reports (toSearch ar (planeOf inp (gpuAcc s') rates) noisePower floor o) G' stale out →
          ∃ a ∈ out, a.indexMax = ((i₀ : Int), c₀) ∧
            a.snr = (P - floor) / driftNoise ar noisePower (inp.timeSteps * w) ∧
            ∀ b ∈ out, b = a ∨ b.snr < a.snr := by
  obtain ⟨rates, h1, h2, h3⟩ := smeared_gpu_cells R24 D24 D53 hz ar hin hview hT hT' hstep hdes hmost hrange hmiddle
    hd hw hline hle htone noisePower o hnoise hless hwide (by omega)
  refine ⟨rates, h1, fun G s' hG hs' G' stale out hG' hrep => ?_⟩
  obtain ⟨hown, hweak⟩ := h3 G s' hG hs'
  set s := toSearch ar (planeOf inp (gpuAcc s') rates) noisePower floor o with hsdef
  have hdr : (s.grid.drifts : Int) = rates.length := rfl
  obtain ⟨a, a1, a2, a3, a4⟩ := gpu_strongest (s := s) (x := ((i₀ : Int), c₀)) hdist hG' hrep
    ⟨hrow.1, by rw [hdr, h2]; exact hrow.2⟩ hcol
    (by rw [hown]; exact lt_of_le_of_lt (half_le_self hthr) habove) (by rw [hown]; exact habove) hweak
  exact ⟨a, a1, a2, by rw [a3, hown], a4⟩

/-- **C156.** A tone of constant power drifts by `d` channels over the observation, and with that over `w`
channels per time step among which its power is spread; `d` is one of the searched drifts and desmearing is
on. Lines of all searched drifts from the tone's start stay away from the band edges by twice the largest
number of channels per time step. In exact arithmetic, when the noise falls with the number of channels
that are averaged as the inverse square root does, and the tone's SNR is above the threshold, the CUDA
integrator and the CUDA component search under every schedule report the tone: start channel `c₀`, drift
`d` and the tone's SNR. Every other hit is weaker.

Missing: float rounding of the sums, tones near the band edges. -/
theorem C156_smeared_tone_on_gpu_partial (R24 D24 : Rounding 24) (D53 : Rounding 53) (hz : Fl → Fl)
    (ar : Arith F Fl) {inp : Input F} {grid : Nat → Int → F} {mask : Nat → Int → UInt8}
    (hin : Holds inp grid mask) (hview : DenseViews inp) {ro : RateOptions}
    (hT : 2 ≤ inp.timeSteps) (hT' : (inp.timeSteps : Int) - 1 ≤ 2 ^ 24) (hstep : ro.step ≠ 0)
    (hdes : ro.desmear = true) {c₀ d : Int} {i₀ w : Nat} {most : Int} (hmost : 1 ≤ most ∧ most ≤ 2 ^ 24)
    (hrange : ∀ i : Nat, (i : Int) < (ro.high - ro.low).tdiv ro.step →
      3 * |ro.low + i * ro.step| < 2 ^ 22 ∧ |ro.low + i * ro.step| ≤ most * ((inp.timeSteps : Int) - 1) ∧
        2 * most ≤ c₀ + (ro.low + i * ro.step) ∧ c₀ + (ro.low + i * ro.step) + 2 * most ≤ inp.numChannels)
    (hmiddle : 2 * most ≤ c₀ ∧ c₀ + 2 * most ≤ inp.numChannels)
    (hd : d = ro.low + i₀ * ro.step) (hw : ChannelsPerStep inp.timeSteps d w) {ch : Nat → Int}
    (hline : FloatToneLine inp.timeSteps c₀ d ch) {P floor : F}
    (htone : SmearedTone inp.numChannels inp.timeSteps grid d w ch floor fun _ => P)
    (noisePower : F) (o : Options F)
    (hnoise : ∀ k : Int, 1 ≤ k → k ≤ most → 0 < driftNoise ar noisePower (inp.timeSteps * k))
    (hfalls : NoiseFalls (fun k => driftNoise ar noisePower (inp.timeSteps * k)) most)
    (hdist : 2 ≤ o.dist) (hrow : o.dist ≤ i₀ ∧ i₀ + o.dist ≤ (ro.high - ro.low).tdiv ro.step)
    (hcol : o.dist ≤ c₀ ∧ c₀ + o.dist ≤ inp.numChannels) (hthr : 0 ≤ o.thr)
    (habove : o.thr < (P - floor) / driftNoise ar noisePower (inp.timeSteps * w)) :
    ∃ rates, computeDrifts R24 hz inp.timeSteps ro = .ok rates ∧
      ∀ (G : Nat) (s' : Mem IAddr (ICell F)), 0 < G →
        Completes ProgStep (gpuIntegrate (F := F) (cudaOps D24 D53) inp.numChannels inp.timeSteps
          rates G) (integrateMem inp rates.length) s' →
        ∀ (G' : Nat) (stale : Bool) (out : List (GpuHit F)), 0 < G' →
          Reports (toSearch ar (planeOf inp (gpuAcc s') rates) noisePower floor o) G' stale out →
          ∃ a ∈ out, a.indexMax = ((i₀ : Int), c₀) ∧
            a.snr = (P - floor) / driftNoise ar noisePower (inp.timeSteps * w) ∧
            ∀ b ∈ out, b = a ∨ b.snr < a.snr := by
  have hwm : (w : Int) ≤ most := widths_le hT hw (fun i hi => (hrange i hi).2.1) (by omega) hd hmost.1
  refine smeared_gpu_level R24 D24 D53 hz ar hin hview hT hT' hstep hdes hmost hrange hmiddle hd hw hline le_rfl
    htone noisePower o hnoise ?_ ?_ hdist hrow hcol hthr habove
  · intro D h1 h2
    exact (hfalls D w (by omega) (by omega) hwm).1
  · intro D h1 h2
    have h3 := (hfalls w D (by have := hw.pos; omega) (by omega) h2).2
    push_cast at h3
    have hq : 0 < P - floor := sub_pos.2 (htone.strong 0 (by omega))
    rw [sub_self, zero_mul, add_zero, add_zero]
    calc _ = (P - floor) * (w * driftNoise ar noisePower (inp.timeSteps * w)) := by ring
      _ < _ := mul_lt_mul_of_pos_left h3 hq

/-- **C156, over noise.** As `C156_smeared_tone_on_gpu_partial`, with samples next to the tone above the noise floor:
it is enough that the tone's power over the strongest of them is `most` times what they are over the floor,
where `most` is the largest number of channels per time step that is searched. -/
theorem C156_tone_over_noise_on_gpu_partial (R24 D24 : Rounding 24) (D53 : Rounding 53) (hz : Fl → Fl)
    (ar : Arith F Fl) {inp : Input F} {grid : Nat → Int → F} {mask : Nat → Int → UInt8}
    (hin : Holds inp grid mask) (hview : DenseViews inp) {ro : RateOptions}
    (hT : 2 ≤ inp.timeSteps) (hT' : (inp.timeSteps : Int) - 1 ≤ 2 ^ 24) (hstep : ro.step ≠ 0)
    (hdes : ro.desmear = true) {c₀ d : Int} {i₀ w : Nat} {most : Int} (hmost : 1 ≤ most ∧ most ≤ 2 ^ 24)
    (hrange : ∀ i : Nat, (i : Int) < (ro.high - ro.low).tdiv ro.step →
      3 * |ro.low + i * ro.step| < 2 ^ 22 ∧ |ro.low + i * ro.step| ≤ most * ((inp.timeSteps : Int) - 1) ∧
        2 * most ≤ c₀ + (ro.low + i * ro.step) ∧ c₀ + (ro.low + i * ro.step) + 2 * most ≤ inp.numChannels)
    (hmiddle : 2 * most ≤ c₀ ∧ c₀ + 2 * most ≤ inp.numChannels)
    (hd : d = ro.low + i₀ * ro.step) (hw : ChannelsPerStep inp.timeSteps d w) {ch : Nat → Int}
    (hline : FloatToneLine inp.timeSteps c₀ d ch) {P floor level : F}
    (hle : floor ≤ level) (htone : SmearedTone inp.numChannels inp.timeSteps grid d w ch level fun _ => P)
    (noisePower : F) (o : Options F)
    (hnoise : ∀ k : Int, 1 ≤ k → k ≤ most → 0 < driftNoise ar noisePower (inp.timeSteps * k))
    (hfalls : NoiseFalls (fun k => driftNoise ar noisePower (inp.timeSteps * k)) most)
    (hsteady : NoiseSteady (fun k => driftNoise ar noisePower (inp.timeSteps * k)) most)
    (hclear : most * (level - floor) < P - level)
    (hdist : 2 ≤ o.dist) (hrow : o.dist ≤ i₀ ∧ i₀ + o.dist ≤ (ro.high - ro.low).tdiv ro.step)
    (hcol : o.dist ≤ c₀ ∧ c₀ + o.dist ≤ inp.numChannels) (hthr : 0 ≤ o.thr)
    (habove : o.thr < (P - floor) / driftNoise ar noisePower (inp.timeSteps * w)) :
    ∃ rates, computeDrifts R24 hz inp.timeSteps ro = .ok rates ∧
      ∀ (G : Nat) (s' : Mem IAddr (ICell F)), 0 < G →
        Completes ProgStep (gpuIntegrate (F := F) (cudaOps D24 D53) inp.numChannels inp.timeSteps
          rates G) (integrateMem inp rates.length) s' →
        ∀ (G' : Nat) (stale : Bool) (out : List (GpuHit F)), 0 < G' →
          Reports (toSearch ar (planeOf inp (gpuAcc s') rates) noisePower floor o) G' stale out →
          ∃ a ∈ out, a.indexMax = ((i₀ : Int), c₀) ∧
            a.snr = (P - floor) / driftNoise ar noisePower (inp.timeSteps * w) ∧
            ∀ b ∈ out, b = a ∨ b.snr < a.snr := by
  have hwm : (w : Int) ≤ most := widths_le hT hw (fun i hi => (hrange i hi).2.1) (by omega) hd hmost.1
  refine smeared_gpu_level R24 D24 D53 hz ar hin hview hT hT' hstep hdes hmost hrange hmiddle hd hw hline hle
    htone noisePower o hnoise ?_ ?_ hdist hrow hcol hthr habove
  · intro D h1 h2
    exact (hfalls D w (by omega) (by omega) hwm).1
  · intro D h1 h2
    have h3 := (hfalls w D (by have := hw.pos; omega) (by omega) h2).2
    have h4 := hsteady w D (by have := hw.pos; omega) (by omega) h2
    push_cast at h3 h4
    have h5 := mul_le_mul_of_nonneg_left h4 (sub_nonneg.2 hle)
    have h6 := mul_lt_mul_of_pos_right hclear (sub_pos.2 h3)
    linarith

end

/-- The hypotheses of C156 hold of a tone over two channels per time step, and the integration completes. -/
example (R24 D24 : Rounding 24) (D53 : Rounding 53) (hz : Fl → Fl) (ar : Arith ℚ Fl) (har : RoundedRoot ar)
    (o : Options ℚ) (hdist : o.dist = 2) (hthr : o.thr = 5) :
    ∃ rates, computeDrifts R24 hz 2 { low := 0, high := 5, step := 1 } = .ok rates ∧
      (∃ s', Completes ProgStep (gpuIntegrate (F := ℚ) (cudaOps D24 D53) 64 2 rates 4)
        (integrateMem (denseInput 2 64 (fun t c => if InWindow 2 2 (20 + 2 * t) c then (16 : ℚ) else 0)
          fun _ _ => 0) rates.length) s') ∧
      ∀ s', Completes ProgStep (gpuIntegrate (F := ℚ) (cudaOps D24 D53) 64 2 rates 4)
        (integrateMem (denseInput 2 64 (fun t c => if InWindow 2 2 (20 + 2 * t) c then (16 : ℚ) else 0)
          fun _ _ => 0) rates.length) s' → ∀ stale out,
        Reports (toSearch ar (planeOf (denseInput 2 64
          (fun t c => if InWindow 2 2 (20 + 2 * t) c then (16 : ℚ) else 0) fun _ _ => 0) (gpuAcc s') rates) 1 0 o)
          4 stale out → ∃ a ∈ out, a.indexMax = (2, 20) ∧ ∀ b ∈ out, b = a ∨ b.snr < a.snr := by
  obtain ⟨f1, f2⟩ := C155_noise_falls har (noisePower := 1) one_pos (T := 2) (by norm_num) (most := 4)
    (by norm_num) (by norm_num)
  have hr : ∀ i : Nat, (i : Int) < ((5 : Int) - 0).tdiv 1 → 0 ≤ (0 : Int) + i * 1 ∧ (0 : Int) + i * 1 ≤ 4 := by
    intro i hi
    have : ((5 : Int) - 0).tdiv 1 = 5 := rfl
    omega
  have hbig := C156_smeared_tone_on_gpu_partial R24 D24 D53 hz ar
    (denseInput_holds 2 64 (fun t c => if InWindow 2 2 (20 + 2 * t) c then (16 : ℚ) else 0) fun _ _ => 0)
    (denseInput_dense _ _ _ _) (ro := { low := 0, high := 5, step := 1 }) (c₀ := 20) (d := 2) (i₀ := 2) (w := 2)
    (ch := fun t => 20 + 2 * t) (P := 16) (floor := 0) (le_refl 2) (by simp [denseInput]) (by decide) rfl
    (most := 4) (by norm_num) (by
      intro i hi
      obtain ⟨a1, a2⟩ := hr i hi
      dsimp only
      rw [abs_of_nonneg a1]
      simp only [denseInput]
      push_cast
      omega) (by simp [denseInput]) (by norm_num) ⟨by norm_num, .inr (by simp [denseInput]; norm_num)⟩
    ⟨by
      intro t _
      simp only [denseInput]
      push_cast
      rw [show (20 + 2 * (t : ℚ) - (20 + 2 * t / ((2 : ℚ) - 1))) = 0 by ring]
      norm_num⟩
    ⟨fun t _ c _ _ h => if_pos h, fun t _ c _ _ h => (if_neg h).le, fun t _ => by norm_num⟩ 1 o f2 f1
    (by omega) (by rw [hdist]; decide) (by rw [hdist]; simp [denseInput]) (by rw [hthr]; norm_num) (by
      rw [hthr]
      have hn := (abs_le.1 (noise_root har (noisePower := 1) one_pos (m := 4) (by norm_num) (by norm_num))).2
      have h4 : √(((4 : Int)) : ℝ) = 2 := by
        rw [show (((4 : Int)) : ℝ) = 2 ^ 2 by norm_num, Real.sqrt_sq (by norm_num)]
      rw [h4] at hn
      have hle : driftNoise ar 1 4 ≤ 1 := by
        have : ((driftNoise ar 1 4 : ℚ) : ℝ) ≤ 1 := by
          norm_num at hn
          linarith
        exact_mod_cast this
      have hpos := f2 2 (by norm_num) (by norm_num)
      simp only [denseInput]
      norm_num at hpos ⊢
      rw [lt_div_iff₀ hpos]
      linarith)
  obtain ⟨rates, off, h1, _, h3, _⟩ := driftSetup_of (N := 64) (T := 2) (o := { low := 0, high := 5, step := 1 })
    (B := 1398102) R24 (narrow D24 D53) hz (by norm_num) (by norm_num) (by norm_num)
    (fun d hd => C06_cuda_geometry_partial R24 D24 D53 (by omega) (by norm_num) (by norm_num)) (by decide)
    (by decide) (fun i hi => by
      obtain ⟨a1, a2⟩ := hr i hi
      dsimp only
      rw [abs_of_nonneg a1]
      omega)
  obtain ⟨rates', h1', hall⟩ := hbig
  obtain rfl : rates = rates' := by
    have h1'' : computeDrifts R24 hz 2 { low := 0, high := 5, step := 1 } = .ok rates' := h1'
    rw [h1] at h1''
    exact Outcome.ok.inj h1''
  refine ⟨rates, h1, (C81_gpu_drift_plane (denseInput_holds 2 64 _ fun _ _ => 0)
    (denseInput_dense 2 64 _ fun _ _ => 0) h3 (by decide)).2.2.1, fun s' hs' stale out hrep => ?_⟩
  obtain ⟨a, a1, a2, _, a4⟩ := hall 4 s' (by decide) hs' 4 stale out (by decide) hrep
  exact ⟨a, a1, a2, a4⟩

/-- The same tone over samples of 0 and 1, of which the noise floor is the mean 1/2. -/
example (R24 D24 : Rounding 24) (D53 : Rounding 53) (hz : Fl → Fl) (ar : Arith ℚ Fl) (har : RoundedRoot ar)
    (o : Options ℚ) (hdist : o.dist = 2) (hthr : o.thr = 5) :
    ∃ rates, computeDrifts R24 hz 2 { low := 0, high := 5, step := 1 } = .ok rates ∧
      (∃ s', Completes ProgStep (gpuIntegrate (F := ℚ) (cudaOps D24 D53) 64 2 rates 4)
        (integrateMem (denseInput 2 64 (fun t c => if InWindow 2 2 (20 + 2 * t) c then (16 : ℚ) else ((c + t) % 2 : Int))
          fun _ _ => 0) rates.length) s') ∧
      ∀ s', Completes ProgStep (gpuIntegrate (F := ℚ) (cudaOps D24 D53) 64 2 rates 4)
        (integrateMem (denseInput 2 64 (fun t c => if InWindow 2 2 (20 + 2 * t) c then (16 : ℚ) else ((c + t) % 2 : Int))
          fun _ _ => 0) rates.length) s' → ∀ stale out,
        Reports (toSearch ar (planeOf (denseInput 2 64
          (fun t c => if InWindow 2 2 (20 + 2 * t) c then (16 : ℚ) else ((c + t) % 2 : Int)) fun _ _ => 0) (gpuAcc s') rates) 1 (1 / 2) o)
          4 stale out → ∃ a ∈ out, a.indexMax = (2, 20) ∧ ∀ b ∈ out, b = a ∨ b.snr < a.snr := by
  obtain ⟨f1, f2⟩ := C155_noise_falls har (noisePower := 1) one_pos (T := 2) (by norm_num) (most := 4)
    (by norm_num) (by norm_num)
  have f3 := C155_noise_steady har (noisePower := 1) one_pos (T := 2) (by norm_num) (most := 4)
    (by norm_num) (by norm_num)
  have hr : ∀ i : Nat, (i : Int) < ((5 : Int) - 0).tdiv 1 → 0 ≤ (0 : Int) + i * 1 ∧ (0 : Int) + i * 1 ≤ 4 := by
    intro i hi
    have : ((5 : Int) - 0).tdiv 1 = 5 := rfl
    omega
  have hbig := C156_tone_over_noise_on_gpu_partial R24 D24 D53 hz ar
    (denseInput_holds 2 64 (fun t c => if InWindow 2 2 (20 + 2 * t) c then (16 : ℚ) else ((c + t) % 2 : Int)) fun _ _ => 0)
    (denseInput_dense _ _ _ _) (ro := { low := 0, high := 5, step := 1 }) (c₀ := 20) (d := 2) (i₀ := 2) (w := 2)
    (ch := fun t => 20 + 2 * t) (P := 16) (floor := 1 / 2) (level := 1) (le_refl 2) (by simp [denseInput]) (by decide) rfl
    (most := 4) (by norm_num) (by
      intro i hi
      obtain ⟨a1, a2⟩ := hr i hi
      dsimp only
      rw [abs_of_nonneg a1]
      simp only [denseInput]
      push_cast
      omega) (by simp [denseInput]) (by norm_num) ⟨by norm_num, .inr (by simp [denseInput]; norm_num)⟩
    ⟨by
      intro t _
      simp only [denseInput]
      push_cast
      rw [show (20 + 2 * (t : ℚ) - (20 + 2 * t / ((2 : ℚ) - 1))) = 0 by ring]
      norm_num⟩
    (by norm_num) ⟨fun t _ c _ _ h => if_pos h, fun t _ c _ _ h => (if_neg h).le.trans (by
      exact_mod_cast (show (c + t) % 2 ≤ 1 by omega)), fun t _ => by norm_num⟩ 1 o f2 f1 f3 (by norm_num)
    (by omega) (by rw [hdist]; decide) (by rw [hdist]; simp [denseInput]) (by rw [hthr]; norm_num) (by
      rw [hthr]
      have hn := (abs_le.1 (noise_root har (noisePower := 1) one_pos (m := 4) (by norm_num) (by norm_num))).2
      have h4 : √(((4 : Int)) : ℝ) = 2 := by
        rw [show (((4 : Int)) : ℝ) = 2 ^ 2 by norm_num, Real.sqrt_sq (by norm_num)]
      rw [h4] at hn
      have hle : driftNoise ar 1 4 ≤ 1 := by
        have : ((driftNoise ar 1 4 : ℚ) : ℝ) ≤ 1 := by
          norm_num at hn
          linarith
        exact_mod_cast this
      have hpos := f2 2 (by norm_num) (by norm_num)
      simp only [denseInput]
      norm_num at hpos ⊢
      rw [lt_div_iff₀ hpos]
      linarith)
  obtain ⟨rates, off, h1, _, h3, _⟩ := driftSetup_of (N := 64) (T := 2) (o := { low := 0, high := 5, step := 1 })
    (B := 1398102) R24 (narrow D24 D53) hz (by norm_num) (by norm_num) (by norm_num)
    (fun d hd => C06_cuda_geometry_partial R24 D24 D53 (by omega) (by norm_num) (by norm_num)) (by decide)
    (by decide) (fun i hi => by
      obtain ⟨a1, a2⟩ := hr i hi
      dsimp only
      rw [abs_of_nonneg a1]
      omega)
  obtain ⟨rates', h1', hall⟩ := hbig
  obtain rfl : rates = rates' := by
    have h1'' : computeDrifts R24 hz 2 { low := 0, high := 5, step := 1 } = .ok rates' := h1'
    rw [h1] at h1''
    exact Outcome.ok.inj h1''
  refine ⟨rates, h1, (C81_gpu_drift_plane (denseInput_holds 2 64 _ fun _ _ => 0)
    (denseInput_dense 2 64 _ fun _ _ => 0) h3 (by decide)).2.2.1, fun s' hs' stale out hrep => ?_⟩
  obtain ⟨a, a1, a2, _, a4⟩ := hall 4 s' (by decide) hs' 4 stale out (by decide) hrep
  exact ⟨a, a1, a2, a4⟩

end Bliss.Gpu
