import Verif.Flag.Noise
import Verif.Stat.Moment

/-!
# Flagging of outliers (C126)

`flag_magnitude` without a threshold (bliss/flaggers/magnitude.cpp lines 28-34) and how many samples it
can flag.
-/

namespace Bliss.Flag

open Bliss.Nd Bliss.Stat

variable {F D : Type}

/-! ## Model -/

/-- `flag_magnitude(coarse_channel)` (`magnitude.cpp:28-34`): the new mask. `gt` is `>`, `lim m s` is
`m + 10*s`. The mask plays no part in the statistics. -/
def flagMagnitudeDefault (o : StatOps F D) (gt : F → F → Bool) (lim : F → F → F) (data mask : Arr)
    (j : Nat → Int → Val F) (h : Heap (Val F)) : Outcome (Heap (Val F) × Arr) := do
  let m ← Stat.mean (liftOps o) data [] (j 0) h
  let mu ← scalar m.1 (some m.2)
  let s ← Stat.stddev (liftOps o) data [] (j 1) m.1
  let sigma ← scalar s.1 (some s.2)
  flagMagnitude (fun x => gt x (lim mu sigma)) data mask (j 2) (j 3) (j 4) s.1

/-! ## Specification -/

/-- Mean and standard deviation of the listed samples as the program computes them, combined to the
threshold. -/
def limitOf (o : StatOps F D) (lim : F → F → F) (X : List Int → F) (l : List (List Int)) : F :=
  lim (o.toV (o.div (l.foldl (fun acc i => o.add acc (o.toD (X i))) o.zero) (o.ofInt l.length)))
    (devFinish o (l.foldl (fun acc i => devStep o l.length acc (X i)) (o.zero, o.zero)))

/-- Population standard deviation of the listed samples. -/
noncomputable def sdev (X : List Int → ℝ) (l : List (List Int)) : ℝ :=
  Real.sqrt (devSum X 2 l / l.length)

/-! ## Any arithmetic -/

/-- The result of the default flagging, for every mask. -/
theorem magnitude_default_spec (o : StatOps F D) (gt : F → F → Bool) (lim : F → F → F)
    (data mask : Arr) (X : List Int → F) (M : List Int → UInt8) (h : Heap (Val F))
    (j : Nat → Int → Val F) (hshape : data.shape = mask.shape) (hne : mask.shape ≠ [])
    (hwf : mask.WF) (hX : h.Contains data (fun i => .num (X i)))
    (hM : h.Contains mask (fun i => .flag (M i))) (hld : data.blk < h.next)
    (hlm : mask.blk < h.next) :
    ∃ h' r, flagMagnitudeDefault o gt lim data mask j h = .ok (h', r) ∧
      Has h' r mask.shape (fun i => .flag (M i +
        if gt (X i) (limitOf o lim X (order data.shape [] [0])) then magnitudeFlag else 0)) ∧
      Ext h h' := by
  have hax : GoodAxes data [] := ⟨by simp, by simp⟩
  have hs : ∀ d ∈ data.shape, 0 ≤ d := by rw [hshape]; exact shape_nonneg hwf
  have hdwf : data.WF := wf_of_shape hs
  obtain ⟨h1, m, a1, a2, a3⟩ := Has.of_returns
    (C53_mean (liftOps o) data [] (j 0) h _ hax hdwf hX hld).1
  have hX1 := Has.mono ⟨rfl, hld, hX⟩ a3
  obtain ⟨h2, s, b1, b2, b3⟩ := Has.of_returns
    (C53_stddev (liftOps o) data [] (j 1) h1 _ hax hdwf hX1.contains hX1.lt).1
  have hX2 := hX1.mono b3
  have hM2 := Has.mono (Has.mono (⟨rfl, hlm, hM⟩ : Has h mask mask.shape _) a3) b3
  have hm := scalar_of (x := o.toV (o.div
      ((order data.shape [] [0]).foldl (fun acc i => o.add acc (o.toD (X i))) o.zero)
      (o.ofInt (order data.shape [] [0]).length))) (by rw [a2.shape, remaining_nil]; rfl) a2.contains rfl
  have hsd := scalar_of (x := devFinish o ((order data.shape [] [0]).foldl
      (fun acc i => devStep o (order data.shape [] [0]).length acc (X i)) (o.zero, o.zero)))
      (by rw [b2.shape, remaining_nil]; rfl) b2.contains rfl
  obtain ⟨h3, r, c1, c2, c3⟩ := magnitude_spec
    (fun x => gt x (limitOf o lim X (order data.shape [] [0]))) (s := mask.shape)
    ⟨hshape, hX2.lt, hX2.contains⟩ hM2 (by rw [← hshape]; exact hs) hne (j 2) (j 3) (j 4)
  refine ⟨h3, r, ?_, c2, (a3.trans b3).trans c3⟩
  simp only [flagMagnitudeDefault, a1, b1, Outcome.bind_ok, hm, hsd]
  exact c1

/-- **C126 (which samples)**. `flag_magnitude` without a threshold computes the mean and the standard
deviation of all samples of the channel, flagged or not, and sets the magnitude flag exactly on the
samples above mean + 10 standard deviations; every other flag, the data and the old mask stay.

Missing: samples that have the flag already (`C61_magnitude_twice`). -/
theorem C126_samples_partial (o : StatOps F D) (gt : F → F → Bool) (lim : F → F → F)
    (data mask : Arr) (X : List Int → F) (M : List Int → UInt8) (h : Heap (Val F))
    (j : Nat → Int → Val F) (hshape : data.shape = mask.shape) (hne : mask.shape ≠ [])
    (hwf : mask.WF) (hX : h.Contains data (fun i => .num (X i)))
    (hM : h.Contains mask (fun i => .flag (M i))) (hld : data.blk < h.next)
    (hlm : mask.blk < h.next)
    (hclear : ∀ i, ValidIdx mask.shape i → M i &&& magnitudeFlag = 0) :
    ∃ l, IsAll data.shape (fun _ => True) l ∧
    ∃ h' r, flagMagnitudeDefault o gt lim data mask j h = .ok (h', r) ∧ r.shape = mask.shape ∧
      h'.Contains r (fun i => .flag
        (if gt (X i) (limitOf o lim X l) then M i ||| magnitudeFlag else M i)) ∧ h.Frame h' := by
  obtain ⟨h', r, e1, e2, e3⟩ := magnitude_default_spec o gt lim data mask X M h j hshape hne hwf hX hM
    hld hlm
  have hen := order_all data
  refine ⟨order data.shape [] [0], ⟨hen.1, fun k => ?_⟩, h', r, e1, e2.shape, fun i hi => ?_, e3.frame⟩
  · rw [hen.2, remaining_nil]; simp [orUnit]
  · rw [e2.contains i hi]
    have hi' : ValidIdx mask.shape i := by rw [← e2.shape]; exact hi
    cases hg : gt (X i) (limitOf o lim X (order data.shape [] [0])) with
    | false => simp [hg]
    | true =>
      simp only [hg, if_true]
      rw [add_bit_or _ _ (by decide) (hclear i hi')]

/-! ## How many samples -/

/-- A sum of nonnegative terms, some of them above `c`. -/
theorem countP_sum {α : Type} (f : α → ℝ) (p : α → Bool) (c : ℝ) (l : List α)
    (hf : ∀ x ∈ l, 0 ≤ f x) (hp : ∀ x ∈ l, p x = true → c < f x) :
    l.countP p * c ≤ (l.map f).sum ∧ (0 < l.countP p → l.countP p * c < (l.map f).sum) := by
  induction l with
  | nil => simp
  | cons a l ih =>
    obtain ⟨i1, i2⟩ := ih (fun x hx => hf x (List.mem_cons_of_mem _ hx))
      (fun x hx => hp x (List.mem_cons_of_mem _ hx))
    have ha := hf a List.mem_cons_self
    rw [List.countP_cons]
    simp only [List.map_cons, List.sum_cons]
    cases h : p a with
    | false =>
      simp only [Bool.false_eq_true, if_false, Nat.add_zero]
      exact ⟨by linarith, fun h => by linarith [i2 h]⟩
    | true =>
      have := hp a List.mem_cons_self h
      simp only [if_true]
      push_cast
      exact ⟨by linarith, fun _ => by linarith⟩

theorem dev_sum_zero (X : List Int → ℝ) (l : List (List Int)) (hl : l ≠ []) :
    (l.map fun i => X i - avg X l).sum = 0 := by
  have hlen : (0 : ℝ) < l.length := by
    have := List.length_pos_of_ne_nil hl
    exact_mod_cast this
  have : ∀ (m : List (List Int)) (c : ℝ), (m.map fun i => X i - c).sum = (m.map X).sum - m.length * c := by
    intro m c
    induction m with
    | nil => simp
    | cons a m ih => simp only [List.map_cons, List.sum_cons, ih, List.length_cons]; push_cast; ring
  rw [this, avg]
  field_simp
  ring

theorem sq_shift (X : List Int → ℝ) (l : List (List Int)) (c d : ℝ) :
    (l.map fun i => (X i - c + d) ^ 2).sum =
      (l.map fun i => (X i - c) ^ 2).sum + 2 * d * (l.map fun i => X i - c).sum + l.length * d ^ 2 := by
  induction l with
  | nil => simp
  | cons a m ih =>
    simp only [List.map_cons, List.sum_cons, ih, List.length_cons]
    push_cast
    ring

/-- Among any list of samples fewer than one in `1 + k²` lie more than `k` standard deviations above the
mean. -/
theorem outliers (X : List Int → ℝ) (l : List (List Int)) (k : ℝ) (hk : 0 < k) (p : List Int → Bool)
    (hp : ∀ i ∈ l, p i = true → avg X l + k * sdev X l < X i) (hpos : 0 < l.countP p) :
    (1 + k ^ 2) * l.countP p < l.length := by
  have hl : l ≠ [] := by rintro rfl; simp at hpos
  have hlen : (0 : ℝ) < l.length := by
    have := List.length_pos_of_ne_nil hl
    exact_mod_cast this
  have hv : 0 ≤ devSum X 2 l / l.length := div_nonneg (devSum_two_nonneg X l) hlen.le
  have hs0 : 0 ≤ sdev X l := Real.sqrt_nonneg _
  have hs2 : sdev X l ^ 2 * l.length = devSum X 2 l := by
    rw [sdev, Real.sq_sqrt hv]; field_simp
  set s := sdev X l with hs
  rcases eq_or_lt_of_le hs0 with h0 | h0
  · -- no spread, no outlier
    exfalso
    have hz : devSum X 2 l = 0 := by rw [← hs2, ← h0]; ring
    obtain ⟨i, hi, hpi⟩ := List.countP_pos_iff.1 hpos
    have h1 := hp i hi hpi
    rw [← h0, mul_zero, add_zero] at h1
    have h2 : (X i - avg X l) ^ 2 ≤ devSum X 2 l :=
      List.single_le_sum (l := l.map fun j => (X j - avg X l) ^ 2) (by
        intro x hx
        obtain ⟨j, -, rfl⟩ := List.mem_map.1 hx
        positivity) _ (List.mem_map.2 ⟨i, hi, rfl⟩)
    rw [hz] at h2
    have : 0 < X i - avg X l := by linarith
    have := pow_pos this 2
    linarith
  · have hc := (countP_sum (fun i => (X i - avg X l + s / k) ^ 2) p ((k * s + s / k) ^ 2) l
      (fun _ _ => sq_nonneg _) (fun i hi hpi => by
        have h1 := hp i hi hpi
        have h2 : 0 < k * s + s / k := by positivity
        nlinarith)).2 hpos
    have hexp : (l.map fun i => (X i - avg X l + s / k) ^ 2).sum =
        devSum X 2 l + 2 * (s / k) * (l.map fun i => X i - avg X l).sum + l.length * (s / k) ^ 2 := by
      unfold devSum
      exact sq_shift X l _ _
    rw [hexp, dev_sum_zero X l hl, ← hs2] at hc
    have hk2 : 0 < k ^ 2 := by positivity
    have e1 : (k * s + s / k) ^ 2 = s ^ 2 / k ^ 2 * (1 + k ^ 2) ^ 2 := by field_simp; ring
    have e2 : s ^ 2 * (l.length : ℝ) + 2 * (s / k) * 0 + l.length * (s / k) ^ 2 =
        s ^ 2 / k ^ 2 * (1 + k ^ 2) * l.length := by field_simp; ring
    rw [e1, e2] at hc
    have hq : 0 < s ^ 2 / k ^ 2 * (1 + k ^ 2) := by positivity
    have : s ^ 2 / k ^ 2 * (1 + k ^ 2) * ((1 + k ^ 2) * l.countP p) <
        s ^ 2 / k ^ 2 * (1 + k ^ 2) * l.length := by linarith
    exact lt_of_mul_lt_mul_left this hq.le

/-- `>` of real numbers. -/
noncomputable def realGt (x y : ℝ) : Bool := (Real.decidableLT y x).decide

/-- The threshold in exact arithmetic. -/
theorem limit_real (X : List Int → ℝ) (l : List (List Int)) (hl : l ≠ []) :
    limitOf realOps (fun m s => m + 10 * s) X l = avg X l + 10 * sdev X l := by
  have hv : 0 ≤ devSum X 2 l / l.length := div_nonneg (devSum_two_nonneg X l) (Nat.cast_nonneg _)
  have hd := devSum_two X l hl
  simp only [limitOf, dev_foldl_real, devFinish, sdev]
  simp only [realOps, id, foldl_add_real, zero_add, Int.cast_natCast, avg]
  rw [← sq ((List.map X l).sum / _), ← hd, max_eq_right hv]

/-- **C126 (how many samples)**. In exact arithmetic `flag_magnitude` without a threshold flags fewer
than one sample in 101, whatever the data: if it flags `k ≥ 1` of the `n` samples of a channel whose
mask does not have the flag, then `101 * k < n`. In particular it flags nothing in a channel of at most
101 samples.

False when the mean, the deviation and the threshold are rounded: `C126_rounding_flags_half`. -/
theorem C126_fraction_partial (data mask : Arr) (X : List Int → ℝ) (M : List Int → UInt8)
    (h : Heap (Val ℝ)) (j : Nat → Int → Val ℝ) (hshape : data.shape = mask.shape)
    (hne : mask.shape ≠ []) (hwf : mask.WF) (hX : h.Contains data (fun i => .num (X i)))
    (hM : h.Contains mask (fun i => .flag (M i))) (hld : data.blk < h.next)
    (hlm : mask.blk < h.next) (hclear : ∀ i, ValidIdx mask.shape i → M i &&& magnitudeFlag = 0) :
    ∃ (N : List Int → UInt8) (h' : Heap (Val ℝ)) (r : Arr),
      flagMagnitudeDefault realOps realGt (fun m s => m + 10 * s) data mask j h = .ok (h', r) ∧
      r.shape = mask.shape ∧ h'.Contains r (fun i => .flag (N i)) ∧
      ∀ l, IsAll mask.shape (fun _ => True) l →
        (∀ i ∈ l, N i &&& magnitudeFlag ≠ 0 ↔ avg X l + 10 * sdev X l < X i) ∧
        (∀ i ∈ l, N i &&& ~~~magnitudeFlag = M i &&& ~~~magnitudeFlag) ∧
        let k := l.countP fun i => decide (N i &&& magnitudeFlag ≠ 0)
        (k = 0 ∨ 101 * k < l.length) := by
  obtain ⟨l', hl', h', r, e1, e2, e3, -⟩ := C126_samples_partial realOps realGt (fun m s => m + 10 * s)
    data mask X M h j hshape hne hwf hX hM hld hlm hclear
  refine ⟨_, h', r, e1, e2, e3, fun l hl => ?_⟩
  have hp : l'.Perm l := by
    rw [List.perm_ext_iff_of_nodup hl'.1 hl.1]
    intro k
    rw [hl'.2, hl.2, hshape]
  have hbit : ∀ m : UInt8, m &&& magnitudeFlag = 0 → (m ||| magnitudeFlag) &&& magnitudeFlag ≠ 0 ∧
      (m ||| magnitudeFlag) &&& ~~~magnitudeFlag = m &&& ~~~magnitudeFlag := by
    intro m hm
    have key : ∀ x : Fin 256, (UInt8.ofNat x.val ||| magnitudeFlag) &&& magnitudeFlag ≠ 0 ∧
        (UInt8.ofNat x.val ||| magnitudeFlag) &&& ~~~magnitudeFlag =
          UInt8.ofNat x.val &&& ~~~magnitudeFlag := by decide +kernel
    have := key ⟨m.toNat, UInt8.toNat_lt m⟩
    simpa using this
  have hlim : ∀ i ∈ l, limitOf realOps (fun m s => m + 10 * s) X l' = avg X l + 10 * sdev X l := by
    intro i hi
    have hne' : l' ≠ [] := by rintro rfl; simp at hp; simp [hp] at hi
    rw [limit_real X l' hne', avg_perm hp, sdev, sdev, devSum_perm hp, hp.length_eq]
  have hflag : ∀ i ∈ l, ((if realGt (X i) (limitOf realOps (fun m s => m + 10 * s) X l') = true
      then M i ||| magnitudeFlag else M i) &&& magnitudeFlag ≠ 0 ↔ avg X l + 10 * sdev X l < X i) := by
    intro i hi
    rw [hlim i hi]
    have hv := hclear i ((hl.2 i).1 hi).1
    simp only [realGt, decide_eq_true_eq]
    split
    · rename_i hgt
      exact ⟨fun _ => hgt, fun _ => (hbit _ hv).1⟩
    · rename_i hgt
      exact ⟨fun hc => absurd hv hc, fun hc => absurd hc hgt⟩
  refine ⟨hflag, fun i hi => ?_, ?_⟩
  · have hv := hclear i ((hl.2 i).1 hi).1
    split
    · exact (hbit _ hv).2
    · rfl
  · intro k
    rcases Nat.eq_zero_or_pos k with hk | hk
    · exact .inl hk
    · right
      have := outliers X l 10 (by norm_num) _ (fun i hi hpi => (hflag i hi).1 (by simpa using hpi)) hk
      have e : (1 : ℝ) + 10 ^ 2 = 101 := by norm_num
      rw [e] at this
      exact_mod_cast this

/-- Mean and deviation of samples that are all equal but one. -/
theorem single_limit (X : List Int → ℝ) (l : List (List Int)) (hl : l.Nodup) (i : List Int) (hi : i ∈ l)
    (c d : ℝ) (hd : 0 < d) (hXi : X i = c + d) (hX : ∀ k ∈ l, k ≠ i → X k = c) :
    avg X l + 10 * sdev X l < X i ↔ 102 ≤ l.length := by
  have hpos : 0 < l.length := List.length_pos_of_mem hi
  have hn : (0 : ℝ) < l.length := by exact_mod_cast hpos
  have hsum : ∀ f : ℝ → ℝ, (l.map fun k => f (X k)).sum = f (c + d) + (l.length - 1 : ℕ) * f c := by
    intro f
    have hperm := List.perm_cons_erase hi
    rw [(hperm.map _).sum_eq, List.map_cons, List.sum_cons, hXi]
    congr 1
    have : (l.erase i).map (fun k => f (X k)) = List.replicate (l.length - 1) (f c) := by
      rw [List.eq_replicate_iff]
      refine ⟨by rw [List.length_map, List.length_erase_of_mem hi], fun b hb => ?_⟩
      obtain ⟨k, hk, rfl⟩ := List.mem_map.1 hb
      have hk' := (List.Nodup.mem_erase_iff hl).1 hk
      rw [hX k hk'.2 hk'.1]
    rw [this, List.sum_replicate, nsmul_eq_mul]
  have hcast : ((l.length - 1 : ℕ) : ℝ) = l.length - 1 := by push_cast [Nat.cast_sub hpos]; ring
  have hm : avg X l = c + d / l.length := by
    have := hsum id
    simp only [id] at this
    unfold avg
    have e : (l.map X).sum = (l.map fun k => X k).sum := rfl
    rw [e, this, hcast]
    field_simp
    ring
  have hv : devSum X 2 l / l.length = (d / l.length) ^ 2 * (l.length - 1) := by
    unfold devSum
    rw [hsum (fun x => (x - avg X l) ^ 2), hm, hcast]
    field_simp
    ring
  have hn1 : (0 : ℝ) ≤ l.length - 1 := by rw [← hcast]; exact Nat.cast_nonneg _
  have hs : sdev X l = d / l.length * Real.sqrt (l.length - 1) := by
    rw [sdev, hv, Real.sqrt_mul (by positivity), Real.sqrt_sq (by positivity)]
  rw [hm, hs, hXi]
  have h1 : c + d / l.length + 10 * (d / l.length * Real.sqrt (l.length - 1)) < c + d ↔
      10 * Real.sqrt (l.length - 1) < l.length - 1 := by
    have e : c + d - (c + d / l.length + 10 * (d / l.length * Real.sqrt (l.length - 1))) =
        d / l.length * ((l.length - 1) - 10 * Real.sqrt (l.length - 1)) := by field_simp; ring
    rw [← sub_pos, e, mul_pos_iff_of_pos_left (by positivity), sub_pos]
  rw [h1]
  have hsq := Real.mul_self_sqrt hn1
  have hs0 := Real.sqrt_nonneg ((l.length : ℝ) - 1)
  constructor
  · intro h
    by_contra hlt
    have : (l.length : ℝ) - 1 ≤ 100 := by
      have : l.length ≤ 101 := by omega
      have : (l.length : ℝ) ≤ 101 := by exact_mod_cast this
      linarith
    nlinarith
  · intro h
    have : (102 : ℝ) ≤ l.length := by exact_mod_cast h
    have h10 : 10 < Real.sqrt (l.length - 1) := by
      rw [Real.lt_sqrt (by norm_num)]
      linarith
    nlinarith

/-- **C126 (one outlier)**. The bound cannot be improved, and it decides whether a single disturbed
sample is found: when all samples but one are equal and that one is larger, however much, the default
flagging flags it, and nothing else, when the channel has at least 102 samples, and flags nothing
otherwise. -/
theorem C126_single (data mask : Arr) (X : List Int → ℝ)
    (h : Heap (Val ℝ)) (j : Nat → Int → Val ℝ) (hshape : data.shape = mask.shape)
    (hne : mask.shape ≠ []) (hwf : mask.WF) (hX : h.Contains data (fun i => .num (X i)))
    (hM : h.Contains mask (fun _ => .flag 0)) (hld : data.blk < h.next)
    (hlm : mask.blk < h.next) (i : List Int) (hi : ValidIdx mask.shape i) (c d : ℝ) (hd : 0 < d)
    (hXi : X i = c + d) (hXk : ∀ k, ValidIdx mask.shape k → k ≠ i → X k = c) :
    ∃ (N : List Int → UInt8) (h' : Heap (Val ℝ)) (r : Arr),
      flagMagnitudeDefault realOps realGt (fun m s => m + 10 * s) data mask j h = .ok (h', r) ∧
      r.shape = mask.shape ∧ h'.Contains r (fun i => .flag (N i)) ∧
      ∀ l, IsAll mask.shape (fun _ => True) l →
        ∀ k ∈ l, (N k &&& magnitudeFlag ≠ 0 ↔ k = i ∧ 102 ≤ l.length) := by
  obtain ⟨N, h', r, e1, e2, e3, e4⟩ := C126_fraction_partial data mask X (fun _ => 0) h j hshape hne hwf
    hX hM hld hlm (fun _ _ => by simp)
  refine ⟨N, h', r, e1, e2, e3, fun l hl k hk => ?_⟩
  have hil : i ∈ l := (hl.2 i).2 ⟨hi, trivial⟩
  have hall : ∀ k ∈ l, k ≠ i → X k = c := fun k hk hki => hXk k ((hl.2 k).1 hk).1 hki
  have hs := single_limit X l hl.1 i hil c d hd hXi hall
  obtain ⟨f1, -, f3⟩ := e4 l hl
  rw [f1 k hk]
  by_cases hki : k = i
  · subst hki; simp [hs]
  · simp only [hki, false_and, iff_false]
    rw [hall k hk hki]
    intro hlt
    -- below the mean
    have havg : c ≤ avg X l := by
      unfold avg
      have hpos : (0 : ℝ) < l.length := by exact_mod_cast List.length_pos_of_mem hk
      rw [le_div_iff₀ hpos]
      have : ∀ m : List (List Int), (∀ x ∈ m, c ≤ X x) → c * m.length ≤ (m.map X).sum := by
        intro m
        induction m with
        | nil => simp
        | cons a m ih =>
          intro hm
          have h1 := ih (fun x hx => hm x (List.mem_cons_of_mem _ hx))
          have h2 := hm a List.mem_cons_self
          simp only [List.length_cons, List.map_cons, List.sum_cons]
          push_cast
          linarith
      refine this l (fun x hx => ?_)
      by_cases hxi : x = i
      · subst hxi; rw [hXi]; linarith
      · rw [hall x hx hxi]
    have : 0 ≤ sdev X l := Real.sqrt_nonneg _
    linarith

/-- A row of `n` samples: all 0 but the first, which is 1. -/
noncomputable def spikeHeap (n : Nat) : Heap (Val ℝ) where
  mem b := if b = 0 then Buf.ofFn n fun k => .num (if k = 0 then 1 else 0)
    else if b = 1 then Buf.ofFn n fun _ => .flag 0 else fun _ => none
  next := 2

-- concrete case: 102 samples, the first of which is flagged
example : ∃ (N : List Int → UInt8) (h' : Heap (Val ℝ)) (r : Arr),
    flagMagnitudeDefault realOps realGt (fun m s => m + 10 * s) (dense 0 [102]) (dense 1 [102])
      (fun _ _ => .num 0) (spikeHeap 102) = .ok (h', r) ∧ h'.get r [0] = some (.flag (N [0])) ∧
    N [0] &&& magnitudeFlag ≠ 0 := by
  have hv : ∀ k, ValidIdx [102] k → ∃ m : Nat, k = [(m : Int)] ∧ m < 102 := by
    intro k hk
    match k, hk with
    | [x], hk =>
      simp only [ValidIdx, List.forall₂_cons, List.Forall₂.nil, and_true] at hk
      exact ⟨x.toNat, by congr 1; omega, by omega⟩
  obtain ⟨N, h', r, e1, e2, e3, e4⟩ := C126_single (dense 0 [102]) (dense 1 [102])
    (fun k => if k = [0] then 1 else 0) (spikeHeap 102) (fun _ _ => .num 0) rfl (by decide)
    (wf_of_shape (by decide))
    (by
      intro k hk
      obtain ⟨m, rfl, hm⟩ := hv k hk
      have ha : addr (dense 0 [102]).dims [(m : Int)] = m := by
        simp [addr, dense, denseDims]
      simp only [Heap.get, ha]
      simp [spikeHeap, dense, Buf.ofFn, hm])
    (by
      intro k hk
      obtain ⟨m, rfl, hm⟩ := hv k hk
      have ha : addr (dense 1 [102]).dims [(m : Int)] = m := by
        simp [addr, dense, denseDims]
      simp only [Heap.get, ha]
      simp [spikeHeap, dense, Buf.ofFn, hm])
    (by decide) (by decide) [0] (.cons (by decide) .nil) 0 1 (by norm_num) (by simp) (by
      intro k _ hk; simp [hk])
  refine ⟨N, h', r, e1, e3 [0] (by rw [e2]; exact .cons (by decide) .nil), ?_⟩
  have hen := order_all (dense 0 [102])
  have hall : IsAll (dense 1 [102]).shape (fun _ => True) (order (dense 0 [102]).shape [] [0]) :=
    ⟨hen.1, fun k => by rw [hen.2, remaining_nil]; simp [orUnit]; rfl⟩
  refine (e4 _ hall [0] ((hall.2 _).2 ⟨.cons (by decide) .nil, trivial⟩)).2 ⟨rfl, ?_⟩
  rw [order_length]
  decide +kernel

end Bliss.Flag
