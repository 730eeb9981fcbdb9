import Verif.Gpu.Tone
import Verif.Hit.RecoverFloat

/-!
# A drifting tone on the GPU, in float arithmetic (C140)

As `Tone.lean`, with every addition, subtraction and division of the sums and of the SNR rounded to 24
significant bits, in any rounding mode.
-/

namespace Bliss.Hit.F32

variable {R : Bliss.Float.Rounding 24}

instance : LE (F32 R) := ⟨fun a b => a.val ≤ b.val⟩

/-- Floats within the exponent range are ordered as the numbers they are. -/
instance : LinearOrder (F32 R) where
  le := (· ≤ ·)
  lt := (· < ·)
  le_refl a := le_refl a.val
  le_trans a b c := le_trans (a := a.val)
  lt_iff_le_not_ge a b := lt_iff_le_not_ge (a := a.val)
  le_antisymm a b h h' := F32.ext (le_antisymm h h')
  le_total a b := le_total a.val b.val
  toDecidableLE := fun a b => inferInstanceAs (Decidable (a.val ≤ b.val))
  toDecidableEq := fun a b => decidable_of_iff (a.val = b.val) F32.ext_iff.symm
  toDecidableLT := inferInstance

end Bliss.Hit.F32

namespace Bliss.Gpu

open Bliss.Drift Bliss.Float Bliss.Comp Bliss.Hit

/-! ## Paths -/

section
variable {F : Type} [Zero F] [Add F] [Sub F] [Div F] [IntCast F] [LT F] [DecidableLT F] [OfNat F 2]

/-- What the search sees of a tone on the GPU, in any arithmetic: the SNR of each cell is that of the
mean over its path; the path of the tone's cell is the tone, and every other path has at least one
sample off the tone. -/
theorem gpu_tone_paths (R24 D24 : Rounding 24) (D53 : Rounding 53) (hz : Fl → Fl)
    (ar : Arith F Fl) {inp : Input F} {grid : Nat → Int → F} {mask : Nat → Int → UInt8}
    (hin : Holds inp grid mask) (hview : DenseViews inp) {ro : RateOptions}
    (hT : 2 ≤ inp.timeSteps) (hT' : (inp.timeSteps : Int) - 1 ≤ 2 ^ 24) (hstep : ro.step ≠ 0)
    {c₀ d : Int} {i₀ : Nat}
    (hrange : ∀ i : Nat, (i : Int) < (ro.high - ro.low).tdiv ro.step →
      3 * |ro.low + i * ro.step| < 2 ^ 22 ∧ 0 ≤ c₀ + (ro.low + i * ro.step) ∧
        c₀ + (ro.low + i * ro.step) < inp.numChannels)
    (hplain : ro.desmear = false ∨ ∀ i : Nat, (i : Int) < (ro.high - ro.low).tdiv ro.step →
      |ro.low + i * ro.step| ≤ (inp.timeSteps : Int) - 1)
    (hi₀ : (i₀ : Int) < (ro.high - ro.low).tdiv ro.step) (hd : d = ro.low + i₀ * ro.step)
    (hstart : 0 ≤ c₀ ∧ c₀ < inp.numChannels) {ch : Nat → Int}
    (hline : FloatToneLine inp.timeSteps c₀ d ch)
    (noisePower floor : F) (o : Options F) :
    ∃ rates, computeDrifts R24 hz inp.timeSteps ro = .ok rates ∧
      (rates.length : Int) = (ro.high - ro.low).tdiv ro.step ∧
      (∃ off, OffsetsAre (cudaOps D24 D53) rates inp.timeSteps off) ∧
      ∃ path : Coord → List (Nat × Int),
        path (i₀, c₀) = (List.range inp.timeSteps).map (fun t => (t, ch t)) ∧
        (∀ x : Coord, 0 ≤ x.1 → x.1 < rates.length → 0 ≤ x.2 → x.2 < inp.numChannels →
          path x ≠ [] ∧ (path x).length ≤ inp.timeSteps ∧
          (∀ y ∈ path x, y.1 < inp.timeSteps ∧ 0 ≤ y.2 ∧ y.2 < inp.numChannels) ∧
          (x ≠ ((i₀ : Int), c₀) → ∃ y ∈ path x, y.2 ≠ ch y.1)) ∧
        ∀ (G : Nat) (s' : Mem IAddr (ICell F)), 0 < G →
          Completes ProgStep (gpuIntegrate (F := F) (cudaOps D24 D53) inp.numChannels inp.timeSteps
            rates G) (integrateMem inp rates.length) s' →
          ∀ x : Coord, 0 ≤ x.1 → x.1 < rates.length → 0 ≤ x.2 → x.2 < inp.numChannels →
            (toSearch ar (planeOf inp (gpuAcc s') rates) noisePower floor o).snr x =
              (pathMean grid (path x) - floor) / driftNoise ar noisePower inp.timeSteps := by
  obtain ⟨rates, off, h1, h2, h3, h4⟩ := driftSetup_of (N := inp.numChannels) (o := ro)
    (B := 1398102) R24 (narrow D24 D53) hz (by norm_num) hT hT'
    (fun d hd => C06_cuda_geometry_partial R24 D24 D53 (by omega) hT hT') hstep (by omega)
    (fun i hi => by have := (hrange i hi).1; omega)
  have hTpos : 0 < inp.timeSteps := by omega
  let line : Nat → Int → Nat → Option (Nat × Int) := fun i c t =>
    if 0 ≤ c + off i t ∧ c + off i t < inp.numChannels then some (t, c + off i t) else none
  have hi₀l : i₀ < rates.length := by omega
  have hget₀ := List.getElem?_eq_getElem hi₀l
  obtain ⟨_, _, _, g2, _, _, g4⟩ := h4 i₀ _ hget₀
  rw [← hd] at g2
  rw [g2] at g4
  have hch : ∀ t < inp.timeSteps, ch t = c₀ + off i₀ t := by
    intro t ht
    have a1 := hline.near t ht
    have a2 := g4.close t ht
    have a3 : |((ch t - (c₀ + off i₀ t) : Int) : ℚ)| < 1 := by
      have e : ((ch t - (c₀ + off i₀ t) : Int) : ℚ) =
          ((ch t : ℚ) - (c₀ + d * t / ((inp.timeSteps : ℚ) - 1))) -
            ((off i₀ t : ℚ) - d * t / ((inp.timeSteps : ℚ) - 1)) := by
        push_cast; ring
      rw [e]
      have a4 := abs_sub ((ch t : ℚ) - (c₀ + d * t / ((inp.timeSteps : ℚ) - 1)))
        ((off i₀ t : ℚ) - d * t / ((inp.timeSteps : ℚ) - 1))
      have a5 : |(d : ℚ)| * (2 ^ (-23 : ℤ) + 2 ^ (-22 : ℤ)) ≤ |(d : ℚ)| * 2 ^ (-21 : ℤ) :=
        mul_le_mul_of_nonneg_left (by norm_num) (abs_nonneg _)
      have a6 := add_lt_add_of_lt_of_le a1 (a2.trans (add_le_add_right a5 _))
      exact lt_of_le_of_lt a4 (lt_of_lt_of_eq a6 (by ring))
    have a4 : |ch t - (c₀ + off i₀ t)| < 1 := by exact_mod_cast a3
    rw [Int.abs_lt_one_iff] at a4
    omega
  have hend := hrange i₀ hi₀
  rw [← hd] at hend
  refine ⟨rates, h1, h2, ⟨off, h3⟩,
    fun x => (List.range inp.timeSteps).filterMap (line x.1.toNat x.2), ?_, ?_, ?_⟩
  · change List.filterMap (line (i₀ : Int).toNat c₀) _ = _
    rw [Int.toNat_natCast, ← List.filterMap_eq_map]
    refine List.filterMap_congr fun t ht => ?_
    rw [List.mem_range] at ht
    have hb := g4.inside t ht
    have hin : 0 ≤ c₀ + off i₀ t ∧ c₀ + off i₀ t < inp.numChannels := by
      rcases le_total 0 d with h | h
      · rw [min_eq_left h, max_eq_right h] at hb; omega
      · rw [min_eq_right h, max_eq_left h] at hb; omega
    simp only [line, Function.comp_apply, if_pos hin, hch t ht]
  · rintro ⟨xi, c⟩ x1 x2 x3 x4
    obtain ⟨i, rfl⟩ := Int.eq_ofNat_of_zero_le x1
    dsimp only at x2 x3 x4 ⊢
    rw [Int.toNat_natCast]
    have hil : i < rates.length := by omega
    have hget := List.getElem?_eq_getElem hil
    obtain ⟨_, _, _, k2, _, _, k4⟩ := h4 i _ hget
    have hfirst : ((0 : Nat), c) ∈ (List.range inp.timeSteps).filterMap (line i c) := by
      refine List.mem_filterMap.2 ⟨0, List.mem_range.2 hTpos, ?_⟩
      simp only [line]
      rw [k4.start, add_zero, if_pos ⟨x3, x4⟩]
    refine ⟨List.ne_nil_of_mem hfirst, (List.length_filterMap_le _ _).trans (by simp), ?_, ?_⟩
    · intro y hy
      obtain ⟨t, ht, hy⟩ := List.mem_filterMap.1 hy
      rw [List.mem_range] at ht
      simp only [line] at hy
      split at hy
      · rename_i hb
        obtain rfl := Option.some.inj hy
        exact ⟨ht, hb.1, hb.2⟩
      · cases hy
    · intro hne
      by_cases hc : c = c₀
      · subst hc
        have hii : i ≠ i₀ := fun h => hne (by rw [h])
        have hr := hrange i (by omega)
        have hend' : off i (inp.timeSteps - 1) = ro.low + i * ro.step := by rw [k4.stop, k2]
        refine ⟨(inp.timeSteps - 1, c + (ro.low + i * ro.step)), ?_, ?_⟩
        · refine List.mem_filterMap.2 ⟨inp.timeSteps - 1, List.mem_range.2 (by omega), ?_⟩
          simp only [line]
          rw [hend', if_pos ⟨hr.2.1, hr.2.2⟩]
        · dsimp only
          rw [hch _ (by omega), g4.stop, hd]
          intro h
          have hmul : ((i : Int) - i₀) * ro.step = 0 := by rw [sub_mul]; omega
          rcases mul_eq_zero.1 hmul with h | h
          · exact hii (by omega)
          · exact hstep h
      · refine ⟨(0, c), hfirst, ?_⟩
        dsimp only
        rw [hch 0 hTpos, g4.start]
        omega
  · rintro G s' hG hs' ⟨xi, c⟩ x1 x2 x3 x4
    obtain ⟨i, rfl⟩ := Int.eq_ofNat_of_zero_le x1
    obtain ⟨cn, rfl⟩ := Int.eq_ofNat_of_zero_le x3
    dsimp only at x2 x3 x4 ⊢
    have hcells := ((C81_gpu_drift_plane hin hview (ops := cudaOps D24 D53) h3 hG).2.2.2 s' hs').1
    have hil : i < rates.length := by omega
    have hr := List.getElem?_eq_getElem hil
    have hrg := hrange i (by omega)
    have hdes : rates[i].desmear = 1 := by
      refine (rates_plain_of h1 hT hT' hr (by omega)).2 ?_
      rcases hplain with h | h
      · exact Or.inl h
      · exact Or.inr (h i (by omega))
    have hv := (hcells i _ hr cn (by omega)).1
    rw [hdes, show (1 : Int).toNat = 1 from rfl, bandPath_one] at hv
    have := snr_cell (ar := ar) (noisePower := noisePower) (floor := floor) (o := o) (inp := inp)
      (a := gpuAcc s') hr (c := cn) (v := _) (by simp only [gpuAcc, hv]; rfl)
    rw [hdes, mul_one] at this
    exact this

end

/-! ## The strongest cell -/

section
variable {F : Type} [Sub F] [Div F] [LinearOrder F] [OfNat F 0] [OfNat F 2]

/-- A cell above the threshold, away from the borders and stronger than every other cell is reported
by the GPU search, and every other protohit is weaker. -/
theorem gpu_strongest {s : Search F} {G : Nat} (hd : 2 ≤ s.dist) (hG : 0 < G) {stale : Bool}
    {out : List (GpuHit F)} (hrep : Reports s G stale out) {x : Coord}
    (hrow : s.dist ≤ x.1 ∧ x.1 + s.dist ≤ s.grid.drifts)
    (hcol : s.dist ≤ x.2 ∧ x.2 + s.dist ≤ s.grid.chans)
    (hhalf : s.thr / 2 < s.snr x) (habove : s.thr < s.snr x)
    (hweak : ∀ y, s.grid.has y → y ≠ x → s.snr y < s.snr x) :
    ∃ a ∈ out, a.indexMax = x ∧ a.snr = s.snr x ∧ ∀ b ∈ out, b = a ∨ b.snr < a.snr := by
  have hhas : s.grid.has x := by
    refine ⟨?_, ?_, ?_, ?_⟩ <;> omega
  have hpeak : IsPeak s x := by
    refine ⟨hhalf, habove, fun y hy => ?_⟩
    have hg : s.grid.has y := hood_inside hrow hcol hy
    refine ⟨hg, ?_⟩
    by_cases he : y = x
    · rw [he]
    · exact (hweak y hg he).le
  obtain ⟨r1, r2, r3⟩ := C77_reported_peaks hd hG hrep
  obtain ⟨a, ha, hae⟩ := r3 _ hhas hpeak fun y hy _ => by
    by_cases he : y = x
    · exact .inl he
    · exact .inr (.inl (hweak y hy he))
  refine ⟨a, ha, hae, by rw [(r2 a ha).2.2, hae], fun b hb => ?_⟩
  by_cases he : b.indexMax = a.indexMax
  · exact .inl (List.inj_on_of_nodup_map r1 hb ha he)
  · right
    rw [(r2 a ha).2.2, (r2 b hb).2.2, hae]
    exact hweak _ (r2 b hb).1 (by rw [← hae]; exact he)

/-- If no other cell is above the threshold and the plane has room for nine protohits, the search is
safe under every schedule, it can return, and it returns nothing but that cell. -/
theorem gpu_only {s : Search F} {G : Nat} (hd : 2 ≤ s.dist) (hG : 0 < G) (stale : Bool) {x : Coord}
    (hroom : 9 * (s.dist * s.dist) ≤ s.grid.drifts * s.grid.chans)
    (hone : ∀ y, s.grid.has y → y ≠ x → ¬ s.thr < s.snr y) :
    ¬ CanFault s G stale ∧ (∃ out, Reports s G stale out) ∧
      ∀ out, Reports s G stale out → ∀ a ∈ out, a.indexMax = x → out = [a] := by
  have hone' : ∀ y, s.grid.has y → IsPeak s y → y = x := by
    intro y hy hp
    by_contra hne
    exact hone y hy hne hp.2.1
  have hcap : capacity s = .ok ((numel s : Int) / (s.dist * s.dist)) := by
    unfold capacity
    rw [if_neg (by omega)]
  have hnum : (numel s : Int) = s.grid.drifts * s.grid.chans := by
    simp only [numel]
    push_cast
    rfl
  have hrm : Roomy s ((numel s : Int) / (s.dist * s.dist)) := by
    have hlen : ((List.range (numel s)).filter fun n =>
        decide (classify s (cellAt s.grid n) = .peak)).length ≤ 1 := by
      refine length_le_one (List.nodup_range.filter _) fun n m hn hm => ?_
      have key : ∀ n ∈ (List.range (numel s)).filter fun n =>
          decide (classify s (cellAt s.grid n) = .peak), (n : Int) = lin s.grid x := by
        intro n hn
        rw [List.mem_filter, List.mem_range, decide_eq_true_eq] at hn
        rw [← hone' _ (numel_cell hn.1) (isPeak_iff.2 hn.2), lin_cellAt]
      have := (key n hn).trans (key m hm).symm
      omega
    unfold Roomy
    have h9 : (9 : Int) ≤ (numel s : Int) / (s.dist * s.dist) := by
      rw [Int.le_ediv_iff_mul_le (by positivity), hnum]
      exact hroom
    omega
  obtain ⟨f1, f2⟩ := C79_memory_safe_partial (s := s) hd hG hcap hrm stale
  refine ⟨f1, f2, fun out hrep a ha hax => ?_⟩
  obtain ⟨r1, r2, _⟩ := C77_reported_peaks hd hG hrep
  have hall : ∀ b ∈ out, b = a := by
    intro b hb
    have e := hone' _ (r2 b hb).1 (r2 b hb).2.1
    exact List.inj_on_of_nodup_map r1 hb ha (by rw [e, hax])
  have hnd : out.Nodup := List.Nodup.of_map _ r1
  cases out with
  | nil => simp at ha
  | cons b w =>
    have hb := hall b (by simp)
    cases w with
    | nil => rw [hb]
    | cons c w =>
      have hc := hall c (by simp)
      rw [hb, hc] at hnd
      simp at hnd

end

/-! ## Rounded means -/

variable {R : Rounding 24}

/-- The rounded sum of samples that are not negative, without the division by one of the CPU
integrator. -/
theorem plainPath_err (grid : Nat → Int → F32 R) (l : List (Nat × Int)) {T : Nat} (hl : l.length ≤ T)
    (hT' : T ≤ 512) (hpos : ∀ s ∈ l, 0 ≤ (grid s.1 s.2).val) :
    |(l.foldl (fun acc s => acc + grid s.1 s.2) 0).val - (l.map fun s => (grid s.1 s.2).val).sum| ≤
      2 * T * 2 ^ (-23 : ℤ) * (l.map fun s => (grid s.1 s.2).val).sum := by
  have hval : ∀ (m : List (Nat × Int)) (acc : F32 R),
      (m.foldl (fun acc s => acc + grid s.1 s.2) acc).val =
        (m.map fun s => (grid s.1 s.2).val).foldl (fun s x => R.r (s + x)) acc.val := by
    intro m
    induction m with
    | nil => intro acc; rfl
    | cons s m ih =>
      intro acc
      rw [List.foldl_cons, ih, List.map_cons, List.foldl_cons, F32.add_val]
  rw [hval l 0, F32.zero_val]
  change |plainSum R.r (l.map fun s => (grid s.1 s.2).val) - _| ≤ _
  have hlT : (l.length : ℚ) ≤ T := by exact_mod_cast hl
  have hTq : (T : ℚ) ≤ 512 := by exact_mod_cast hT'
  have habs : ∀ m : List (Nat × Int), (∀ s ∈ m, 0 ≤ (grid s.1 s.2).val) →
      absSum (m.map fun s => (grid s.1 s.2).val) = (m.map fun s => (grid s.1 s.2).val).sum ∧
      0 ≤ (m.map fun s => (grid s.1 s.2).val).sum := by
    intro m
    induction m with
    | nil => simp [absSum]
    | cons s m ih =>
      intro hm
      obtain ⟨i1, i2⟩ := ih fun x hx => hm x (List.mem_cons_of_mem _ hx)
      have h0 := hm s List.mem_cons_self
      simp only [List.map_cons, List.sum_cons, absSum] at i1 i2 ⊢
      rw [abs_of_nonneg h0, i1]
      exact ⟨rfl, by linarith⟩
  obtain ⟨e1, e2⟩ := habs l hpos
  have hb := plainSum_err (relErr24 R) (by positivity) (l.map fun s => (grid s.1 s.2).val) (by
    simp only [List.length_map]
    norm_num
    linarith)
  rw [e1, List.length_map] at hb
  refine hb.trans (mul_le_mul_of_nonneg_right (mul_le_mul_of_nonneg_right ?_ (by positivity)) e2)
  linarith

/-- The rounded mean over a path with samples between 0 and `p`, off the exact mean by little. -/
theorem pathMean_err (grid : Nat → Int → F32 R) (l : List (Nat × Int)) {T : Nat} (hne : l ≠ [])
    (hl : l.length ≤ T) (hT' : T ≤ 512) {p : ℚ}
    (hpos : ∀ s ∈ l, 0 ≤ (grid s.1 s.2).val ∧ (grid s.1 s.2).val ≤ p) :
    ∃ A : ℚ, (pathMean grid l).val = R.r (A / l.length) ∧ 0 ≤ A ∧ A ≤ 3 * p * l.length ∧
      |A / l.length - (l.map fun s => (grid s.1 s.2).val).sum / l.length| ≤
        2 * T * 2 ^ (-23 : ℤ) * p := by
  have hlen : 0 < l.length := List.length_pos_iff.2 hne
  have hlq : (0 : ℚ) < l.length := by exact_mod_cast hlen
  have hTq : (T : ℚ) ≤ 512 := by exact_mod_cast hT'
  have he := plainPath_err grid l hl hT' fun s hs => (hpos s hs).1
  have hs0 : 0 ≤ (l.map fun s => (grid s.1 s.2).val).sum := by
    refine List.sum_nonneg fun x hx => ?_
    obtain ⟨s, hs, rfl⟩ := List.mem_map.1 hx
    exact (hpos s hs).1
  have hs1 : (l.map fun s => (grid s.1 s.2).val).sum ≤ l.length * p := by
    have := List.sum_le_card_nsmul (l.map fun s => (grid s.1 s.2).val) p fun x hx => by
      obtain ⟨s, hs, rfl⟩ := List.mem_map.1 hx
      exact (hpos s hs).2
    rwa [List.length_map, nsmul_eq_mul] at this
  refine ⟨(l.foldl (fun acc s => acc + grid s.1 s.2) 0).val, ?_, ?_, ?_, ?_⟩
  · unfold pathMean
    rw [if_neg hne, F32.div_val, F32.int_val]
    have := R.int (l.length : ℤ) (by rw [Nat.abs_cast]; norm_num; omega)
    rw [this]
    simp
  all_goals
    generalize (l.foldl (fun acc s => acc + grid s.1 s.2) 0).val = A at *
    generalize (l.map fun s => (grid s.1 s.2).val).sum = S at *
    have u0 : (0 : ℚ) < 2 ^ (-23 : ℤ) := by positivity
    have u1 : (2 : ℚ) ^ (-23 : ℤ) ≤ 1 / 8388608 := by norm_num
    generalize (2 : ℚ) ^ (-23 : ℤ) = u at *
    have hTu : 2 * (T : ℚ) * u ≤ 1 / 8192 := by
      have : (T : ℚ) * u ≤ 512 * (1 / 8388608) :=
        mul_le_mul hTq u1 u0.le (by norm_num)
      linarith
    have hE : 2 * (T : ℚ) * u * S ≤ 1 / 8192 * S := mul_le_mul_of_nonneg_right hTu hs0
    rw [abs_le] at he
  · linarith [he.1]
  · linarith [he.2]
  · rw [← sub_div, abs_div, abs_of_pos hlq, div_le_iff₀ hlq, abs_le]
    have h2 : 2 * (T : ℚ) * u * S ≤ 2 * T * u * (l.length * p) :=
      mul_le_mul_of_nonneg_left hs1 (by positivity)
    constructor <;> linarith [he.1, he.2]

/-! ## The property -/

theorem foldl_add_sum (g : Nat → Int → ℚ) (l : List (Nat × Int)) (a : ℚ) :
    l.foldl (fun acc s => acc + g s.1 s.2) a = a + (l.map fun s => g s.1 s.2).sum := by
  induction l generalizing a with
  | nil => simp
  | cons s l ih => rw [List.foldl_cons, ih]; simp; ring

/-- The drift plane of such a tone as the GPU computes it in float: the tone's cell is above the threshold and close
to its exact SNR, every other cell is weaker, and is not above a threshold that is higher than what a path can have
that misses the tone once. -/
theorem gpu_tone_cells_float (R24 D24 : Rounding 24) (D53 : Rounding 53) (hz : Fl → Fl)
    (ar : Arith (F32 R) Fl) {inp : Input (F32 R)} {grid : Nat → Int → F32 R}
    {mask : Nat → Int → UInt8}
    (hin : Holds inp grid mask) (hview : DenseViews inp) {ro : RateOptions}
    (hT : 2 ≤ inp.timeSteps) (hT' : inp.timeSteps ≤ 512) (hstep : ro.step ≠ 0)
    {c₀ d : Int} {i₀ : Nat}
    (hrange : ∀ i : Nat, (i : Int) < (ro.high - ro.low).tdiv ro.step →
      3 * |ro.low + i * ro.step| < 2 ^ 22 ∧ 0 ≤ c₀ + (ro.low + i * ro.step) ∧
        c₀ + (ro.low + i * ro.step) < inp.numChannels)
    (hplain : ro.desmear = false ∨ ∀ i : Nat, (i : Int) < (ro.high - ro.low).tdiv ro.step →
      |ro.low + i * ro.step| ≤ (inp.timeSteps : Int) - 1)
    (hd : d = ro.low + i₀ * ro.step) {ch : Nat → Int}
    (hline : FloatToneLine inp.timeSteps c₀ d ch) {p : ℚ}
    (htone : SteadyTone inp.numChannels inp.timeSteps (fun t c => (grid t c).val) ch p (p / 2))
    (hpos : ∀ t < inp.timeSteps, ∀ c : Int, 0 ≤ c → c < inp.numChannels → 0 ≤ (grid t c).val)
    (noisePower floor : F32 R) (hfloor : 0 ≤ floor.val ∧ floor.val ≤ p / 2) (o : Options (F32 R))
    (hnoise : 0 < (driftNoise ar noisePower inp.timeSteps).val)
    (hi₀ : (i₀ : Int) < (ro.high - ro.low).tdiv ro.step) (hstart : 0 ≤ c₀ ∧ c₀ < inp.numChannels) {exact : ℚ}
    (hexact : exact = (p - floor.val) / (driftNoise ar noisePower inp.timeSteps).val)
    (habove : o.thr.val < (p - p / (8 * inp.timeSteps) - floor.val) /
      (driftNoise ar noisePower inp.timeSteps).val) :
    ∃ rates, computeDrifts R24 hz inp.timeSteps ro = .ok rates ∧
      (rates.length : Int) = (ro.high - ro.low).tdiv ro.step ∧
      ∀ (G : Nat) (s' : Mem IAddr (ICell (F32 R))), 0 < G →
        Completes ProgStep (gpuIntegrate (F := F32 R) (cudaOps D24 D53) inp.numChannels inp.timeSteps
          rates G) (integrateMem inp rates.length) s' →
        let s := toSearch ar (planeOf inp (gpuAcc s') rates) noisePower floor o
        s.thr < s.snr ((i₀ : Int), c₀) ∧ |(s.snr ((i₀ : Int), c₀)).val - exact| ≤ exact / 1024 ∧
        (∀ y, s.grid.has y → y ≠ ((i₀ : Int), c₀) → s.snr y < s.snr ((i₀ : Int), c₀)) ∧
        ((p - p / (4 * inp.timeSteps) - floor.val) /
            (driftNoise ar noisePower inp.timeSteps).val ≤ o.thr.val →
          ∀ y, s.grid.has y → y ≠ ((i₀ : Int), c₀) → ¬ s.thr < s.snr y) := by
  obtain ⟨rates, h1, h2, _, path, hp1, hp2, hp3⟩ := gpu_tone_paths R24 D24 D53 hz ar hin hview hT
    (by norm_num; omega) hstep hrange hplain hi₀ hd hstart hline noisePower
    floor o
  refine ⟨rates, h1, h2, fun G s' hG hs' => ?_⟩
  intro s
  have hsnr := hp3 G s' hG hs'
  set T := inp.timeSteps with hTdef
  set N := inp.numChannels with hN
  set n := driftNoise ar noisePower T with hn
  have hp : 0 < p := by have := htone.below; linarith
  have hTq : (0 : ℚ) < T := by
    have : 0 < T := by omega
    exact_mod_cast this
  have hT5 : (T : ℚ) ≤ 512 := by exact_mod_cast hT'
  have hTT : (T : ℚ) * T ≤ 512 * T := mul_le_mul_of_nonneg_right hT5 hTq.le
  let g : Nat → Int → ℚ := fun t c => (grid t c).val
  have hle : ∀ t < T, ∀ c : Int, 0 ≤ c → c < N → 0 ≤ g t c ∧ g t c ≤ p := by
    intro t ht c h0 hc
    refine ⟨hpos t ht c h0 hc, ?_⟩
    by_cases he : c = ch t
    · rw [he]; exact (htone.tone t ht).le
    · exact (htone.other t ht c h0 hc he).trans (by linarith)
  have hdr : (s.grid.drifts : Int) = rates.length := rfl
  have hchn : (s.grid.chans : Int) = N := rfl
  -- the computed SNR of a cell, against its exact mean
  have hcell : ∀ x, s.grid.has x → |(s.snr x).val * n.val - (pathMean g (path x) - floor.val)| ≤
      (2 * T + 15) / 8388608 * p := by
    rintro x ⟨x1, x2, x3, x4⟩
    rw [hdr] at x2
    rw [hchn] at x4
    obtain ⟨q1, q2, q3, _⟩ := hp2 x x1 x2 x3 x4
    obtain ⟨A, a1, a2, a3, a4⟩ := pathMean_err grid (path x) (p := p) q1 q2 hT' fun y hy =>
      hle _ (q3 y hy).1 _ (q3 y hy).2.1 (q3 y hy).2.2
    have e : (s.snr x).val = rSnr R A (path x).length floor.val n.val := by
      change ((toSearch ar (planeOf inp (gpuAcc s') rates) noisePower floor o).snr x).val = _
      rw [hsnr x x1 x2 x3 x4, F32.div_val, F32.sub_val, a1]
      rfl
    have em : pathMean g (path x) =
        ((path x).map fun s => (grid s.1 s.2).val).sum / (path x).length := by
      unfold pathMean
      rw [if_neg q1, foldl_add_sum, zero_add, Int.cast_natCast]
    have hr := rSnr_err (R := R) (A := A)
      (M := ((path x).map fun s => (grid s.1 s.2).val).sum / (path x).length) (p := p)
      (f := floor.val) (n := n.val) (List.length_pos_iff.2 q1) hp hnoise ⟨a2, a3⟩
      ⟨hfloor.1, by linarith [hfloor.2]⟩
    rw [e, em]
    refine hr.trans ((add_le_add_left a4 _).trans ?_)
    rw [show (2 : ℚ) ^ (-23 : ℤ) = 1 / 8388608 by norm_num]
    exact le_of_eq (by ring)
  have hK1 : (2 * (T : ℚ) + 15) / 8388608 * p ≤ p / (8 * T) := by
    rw [le_div_iff₀ (by positivity)]
    have hk : (2 * (T : ℚ) + 15) / 8388608 * (8 * T) ≤ 1 := by nlinarith
    have := mul_le_mul_of_nonneg_right hk hp.le
    linarith
  have hK2 : (2 * (T : ℚ) + 15) / 8388608 * p ≤ p / 2048 := by
    have hk : (2 * (T : ℚ) + 15) / 8388608 ≤ 1 / 2048 := by linarith
    have := mul_le_mul_of_nonneg_right hk hp.le
    linarith
  -- the exact means
  have hx₀ : s.grid.has ((i₀ : Int), c₀) := by
    refine ⟨?_, ?_, ?_, ?_⟩ <;> simp only [hdr, hchn] <;> omega
  have hmean₀ : pathMean g (path ((i₀ : Int), c₀)) = p := by
    have hne : (List.range T).map (fun t => (t, ch t)) ≠ [] := by
      simp only [ne_eq, List.map_eq_nil_iff, List.range_eq_nil]; omega
    rw [hp1]
    unfold pathMean
    have e : (List.range T).map ((fun s : Nat × Int => g s.1 s.2) ∘ fun t => (t, ch t)) =
        (List.range T).map fun _ => p :=
      List.map_congr_left fun t ht => htone.tone t (List.mem_range.1 ht)
    rw [if_neg hne, foldl_add_sum, zero_add, List.map_map, e, List.map_const', List.sum_replicate]
    simp only [List.length_range, List.length_map, nsmul_eq_mul, Int.cast_natCast]
    field_simp
  have hmean : ∀ x, s.grid.has x → x ≠ ((i₀ : Int), c₀) →
      pathMean g (path x) ≤ p - p / (2 * T) := by
    rintro x ⟨x1, x2, x3, x4⟩ hne
    rw [hdr] at x2
    rw [hchn] at x4
    obtain ⟨q1, q2, q3, q4⟩ := hp2 x x1 x2 x3 x4
    obtain ⟨y, hy, hyne⟩ := q4 hne
    have := mean_le g (P := p) (B := p / 2) (T := T) (path x) q2
      (fun y hy => (hle _ (q3 y hy).1 _ (q3 y hy).2.1 (q3 y hy).2.2).2) (by linarith)
      ⟨y, hy, htone.other _ (q3 y hy).1 _ (q3 y hy).2.1 (q3 y hy).2.2 hyne⟩
    have e : (p - p / 2) / T = p / (2 * T) := by field_simp; ring
    rwa [e] at this
  have hq : 0 < p / (8 * (T : ℚ)) := by positivity
  have h4 : p / (4 * (T : ℚ)) = 2 * (p / (8 * T)) := by field_simp; ring
  have h2q : p / (2 * (T : ℚ)) = 4 * (p / (8 * T)) := by field_simp; ring
  have hsmall : p / (8 * (T : ℚ)) ≤ p / 16 := by
    have : (2 : ℚ) ≤ T := by exact_mod_cast hT
    exact div_le_div_of_nonneg_left hp.le (by norm_num) (by linarith)
  have htc := hcell _ hx₀
  rw [hmean₀] at htc
  have hweak : ∀ y, s.grid.has y → y ≠ ((i₀ : Int), c₀) → s.snr y < s.snr ((i₀ : Int), c₀) := by
    intro y hy hne
    have a1 := hcell y hy
    have a2 := hmean y hy hne
    rw [F32.lt_val]
    rw [abs_le] at a1 htc
    have : (s.snr y).val * n.val < (s.snr ((i₀ : Int), c₀)).val * n.val := by
      linarith [a1.2, htc.1]
    exact lt_of_mul_lt_mul_right this hnoise.le
  have hab : s.thr < s.snr ((i₀ : Int), c₀) := by
    rw [F32.lt_val]
    rw [lt_div_iff₀ hnoise] at habove
    rw [abs_le] at htc
    have : s.thr.val * n.val < (s.snr ((i₀ : Int), c₀)).val * n.val := by
      change o.thr.val * n.val < _
      linarith [htc.1]
    exact lt_of_mul_lt_mul_right this hnoise.le
  have hE : exact * n.val = p - floor.val := by rw [hexact]; field_simp
  refine ⟨hab, ?_, hweak, fun hclear y hy hne => ?_⟩
  · have hgen : |((s.snr ((i₀ : Int), c₀)).val - exact) * n.val| ≤ exact / 1024 * n.val := by
      rw [sub_mul, hE]
      refine htc.trans (hK2.trans ?_)
      have e : exact / 1024 * n.val = (p - floor.val) / 1024 := by rw [← hE]; ring
      rw [e]
      linarith [hfloor.2]
    rw [abs_mul, abs_of_pos hnoise] at hgen
    exact le_of_mul_le_mul_right hgen hnoise
  · rw [F32.lt_val, not_lt]
    have a1 := hcell y hy
    have a2 := hmean y hy hne
    rw [div_le_iff₀ hnoise] at hclear
    rw [abs_le] at a1
    have : (s.snr y).val * n.val ≤ s.thr.val * n.val := by
      change _ ≤ o.thr.val * n.val
      linarith [a1.2]
    exact le_of_mul_le_mul_right this hnoise

/-- **C140 in float arithmetic.** Take any spectrum of floats that are not negative, of 2 to 512 time
steps, with a tone of constant power `p` on a straight line from channel `c₀`, drifting by `d`
channels, `d` being one of the searched drifts, all of which stay in the band when started at `c₀`;
every other sample is at most half as strong. Let the noise floor be at most half the tone, and suppose
that no desmearing takes place, that the tone's cell is at least the search distance away from the
borders of the drift plane, and that its power exceeds the threshold by `1/(8T)` of it. Then, with
every float operation rounded in any mode, every result that the CUDA integrator and the CUDA
component search can give, under any schedule, contains a protohit at the tone's start channel and
drift, with the tone's SNR up to `1/1024` of it, and every other protohit is weaker. If the threshold
is not more than `1/(4T)` of the tone's power below it, and there is room for nine protohits, then the
search has no undefined behaviour under any schedule, it can return, and the tone is all that it
returns.

Missing: desmeared drifts, overflow and underflow. -/
theorem C140_tone_found_float_partial (R24 D24 : Rounding 24) (D53 : Rounding 53) (hz : Fl → Fl)
    (ar : Arith (F32 R) Fl) {inp : Input (F32 R)} {grid : Nat → Int → F32 R}
    {mask : Nat → Int → UInt8}
    (hin : Holds inp grid mask) (hview : DenseViews inp) {ro : RateOptions}
    (hT : 2 ≤ inp.timeSteps) (hT' : inp.timeSteps ≤ 512) (hstep : ro.step ≠ 0)
    {c₀ d : Int} {i₀ : Nat}
    (hrange : ∀ i : Nat, (i : Int) < (ro.high - ro.low).tdiv ro.step →
      3 * |ro.low + i * ro.step| < 2 ^ 22 ∧ 0 ≤ c₀ + (ro.low + i * ro.step) ∧
        c₀ + (ro.low + i * ro.step) < inp.numChannels)
    (hplain : ro.desmear = false ∨ ∀ i : Nat, (i : Int) < (ro.high - ro.low).tdiv ro.step →
      |ro.low + i * ro.step| ≤ (inp.timeSteps : Int) - 1)
    (hd : d = ro.low + i₀ * ro.step) {ch : Nat → Int}
    (hline : FloatToneLine inp.timeSteps c₀ d ch) {p : ℚ}
    (htone : SteadyTone inp.numChannels inp.timeSteps (fun t c => (grid t c).val) ch p (p / 2))
    (hpos : ∀ t < inp.timeSteps, ∀ c : Int, 0 ≤ c → c < inp.numChannels → 0 ≤ (grid t c).val)
    (noisePower floor : F32 R) (hfloor : 0 ≤ floor.val ∧ floor.val ≤ p / 2) (o : Options (F32 R))
    (hnoise : 0 < (driftNoise ar noisePower inp.timeSteps).val) (hdist : 2 ≤ o.dist)
    (hrow : o.dist ≤ i₀ ∧ i₀ + o.dist ≤ (ro.high - ro.low).tdiv ro.step)
    (hcol : o.dist ≤ c₀ ∧ c₀ + o.dist ≤ inp.numChannels) (hthr : 0 ≤ o.thr.val) {exact : ℚ}
    (hexact : exact = (p - floor.val) / (driftNoise ar noisePower inp.timeSteps).val)
    (habove : o.thr.val < (p - p / (8 * inp.timeSteps) - floor.val) /
      (driftNoise ar noisePower inp.timeSteps).val) :
    ∃ rates, computeDrifts R24 hz inp.timeSteps ro = .ok rates ∧
      ∀ (G : Nat) (s' : Mem IAddr (ICell (F32 R))), 0 < G →
        Completes ProgStep (gpuIntegrate (F := F32 R) (cudaOps D24 D53) inp.numChannels inp.timeSteps
          rates G) (integrateMem inp rates.length) s' →
        ∀ (G' : Nat) (stale : Bool), 0 < G' →
          let s := toSearch ar (planeOf inp (gpuAcc s') rates) noisePower floor o
          (∀ out, Reports s G' stale out →
            ∃ a ∈ out, a.indexMax = ((i₀ : Int), c₀) ∧ |a.snr.val - exact| ≤ exact / 1024 ∧
              ∀ b ∈ out, b = a ∨ b.snr.val < a.snr.val) ∧
          ((p - p / (4 * inp.timeSteps) - floor.val) /
              (driftNoise ar noisePower inp.timeSteps).val ≤ o.thr.val →
            9 * (o.dist * o.dist) ≤ (ro.high - ro.low).tdiv ro.step * inp.numChannels →
            ¬ CanFault s G' stale ∧ (∃ out, Reports s G' stale out) ∧
            ∀ out, Reports s G' stale out → ∃ a, out = [a] ∧ a.indexMax = ((i₀ : Int), c₀)) := by
  obtain ⟨rates, h1, h2, h3⟩ := gpu_tone_cells_float R24 D24 D53 hz ar hin hview hT hT' hstep hrange hplain hd hline
    htone hpos noisePower floor hfloor o hnoise (by omega) ⟨by omega, by omega⟩ hexact habove
  refine ⟨rates, h1, fun G s' hG hs' G' stale hG' => ?_⟩
  intro s
  obtain ⟨hab, hclose, hweak, hothers⟩ := h3 G s' hG hs'
  have hdr : (s.grid.drifts : Int) = rates.length := rfl
  have hhalf : s.thr / 2 < s.snr ((i₀ : Int), c₀) := F32.half_lt hthr _ hab
  have hfound : ∀ out, Reports s G' stale out →
      ∃ a ∈ out, a.indexMax = ((i₀ : Int), c₀) ∧ |a.snr.val - exact| ≤ exact / 1024 ∧
        ∀ b ∈ out, b = a ∨ b.snr.val < a.snr.val := by
    intro out hrep
    obtain ⟨a, ha, k1, k2, k3⟩ := gpu_strongest (s := s) hdist hG' hrep (x := ((i₀ : Int), c₀))
      ⟨hrow.1, by rw [hdr, h2]; exact hrow.2⟩ hcol hhalf hab hweak
    exact ⟨a, ha, k1, by rw [k2]; exact hclose, k3⟩
  refine ⟨hfound, fun hclear hroom => ?_⟩
  obtain ⟨f1, f2, f3⟩ := gpu_only (s := s) hdist hG' stale (x := ((i₀ : Int), c₀))
    (by rw [hdr, h2]; exact hroom) (hothers hclear)
  refine ⟨f1, f2, fun out hrep => ?_⟩
  obtain ⟨a, ha, k1, _⟩ := hfound out hrep
  exact ⟨a, f3 out hrep a ha k1, k1⟩

/-! ## Non-vacuity -/

/-- The hypotheses are met, in every rounding mode, by a tone of power 10 that drifts by 2 channels
over 3 time steps in a band of 64 over a background of 1/8, with drifts -4, ..., 4 searched and a
threshold of 9.5; so the tone is all that is reported. -/
example (R R24 D24 : Rounding 24) (D53 : Rounding 53) (o : Options (F32 R)) (hdist : o.dist = 2)
    (hthr : o.thr.val = 19 / 2) :
    let ch : Nat → Int := fun t => 20 + t
    let grid : Nat → Int → F32 R := fun t c => if c = ch t then ⟨10⟩ else ⟨1 / 8⟩
    let inp := denseInput 3 64 grid (fun _ _ => 0)
    let ro : RateOptions := { low := -4, high := 5, step := 1, desmear := false }
    ∃ rates, computeDrifts R24 id inp.timeSteps ro = .ok rates ∧
      ∀ s', Completes ProgStep (gpuIntegrate (F := F32 R) (cudaOps D24 D53) inp.numChannels
          inp.timeSteps rates 4) (integrateMem inp rates.length) s' →
        let s := toSearch (unitArith32 R) (planeOf inp (gpuAcc s') rates) ⟨1⟩ ⟨0⟩ o
        (∃ out, Reports s 4 false out) ∧
          ∀ out, Reports s 4 false out → ∃ a, out = [a] ∧ a.indexMax = (6, 20) := by
  intro ch grid inp ro
  have hr : (ro.high - ro.low).tdiv ro.step = 9 := rfl
  have hT : inp.timeSteps = 3 := rfl
  have hN : inp.numChannels = 64 := rfl
  have hn : (driftNoise (unitArith32 R) ⟨1⟩ inp.timeSteps).val = 1 := rfl
  have hrange : ∀ i : Nat, (i : Int) < (ro.high - ro.low).tdiv ro.step →
        3 * |ro.low + i * ro.step| < 2 ^ 22 ∧ 0 ≤ 20 + (ro.low + i * ro.step) ∧
          20 + (ro.low + i * ro.step) < inp.numChannels := by
    intro i hi
    rw [hr] at hi
    have h1 : |ro.low + i * ro.step| ≤ 4 := by simp only [ro]; rw [abs_le]; omega
    rw [hN]
    refine ⟨by omega, ?_, ?_⟩ <;> simp only [ro] <;> omega
  have hline : FloatToneLine inp.timeSteps 20 2 ch := by
    refine ⟨fun t _ => ?_⟩
    simp only [ch, hT]
    push_cast
    rw [show (20 + (t : ℚ) - (20 + 2 * t / ((3 : ℚ) - 1))) = 0 by ring]
    norm_num
  have htone : SteadyTone inp.numChannels inp.timeSteps (fun t c => (grid t c).val) ch (10 : ℚ)
      (10 / 2) := by
    refine ⟨fun t _ => ?_, fun t _ c _ _ hne => ?_, by norm_num⟩
    · simp [grid]
    · simp only [grid, hne, if_false]; norm_num
  obtain ⟨rates, h1, h2⟩ := C140_tone_found_float_partial (R := R) R24 D24 D53 id (unitArith32 R)
    (denseInput_holds 3 64 grid fun _ _ => 0) (denseInput_dense 3 64 grid fun _ _ => 0)
    (ro := ro) (i₀ := 6) (c₀ := 20) (d := 2) (by simp [denseInput])
    (by simp [denseInput]) (by decide) hrange (.inl rfl) rfl hline htone
    (fun t _ c _ _ => by simp only [grid]; split <;> norm_num) ⟨1⟩ ⟨0⟩ ⟨le_refl _, by norm_num⟩ o
    (by rw [hn]; norm_num) (by omega) (by rw [hr, hdist]; decide) (by rw [hdist]; simp [denseInput])
    (by rw [hthr]; norm_num) rfl (by rw [hthr, hn, hT]; norm_num)
  refine ⟨rates, h1, fun s' hs' => ?_⟩
  exact ((h2 4 s' (by decide) hs' 4 false (by decide)).2
    (by rw [hthr, hn, hT]; norm_num) (by rw [hdist, hr]; simp [denseInput])).2

end Bliss.Gpu
