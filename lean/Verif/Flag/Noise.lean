import Verif.Flag.Magnitude
import Mathlib.Tactic.IntervalCases

/-!
# C63, C75, C76: noise estimates and normalization
-/

namespace Bliss.Flag

open Bliss.Nd Bliss.Stat

variable {F D : Type}

theorem flagHeap_contains {h : Heap (Val F)} {a : Arr} {M : List Int → UInt8}
    (hM : h.Contains a (fun i => .flag (M i))) : (flagHeap h).Contains a M := by
  intro i hi
  have := hM i hi
  simp only [Heap.get] at this ⊢
  simp only [flagHeap, this]

theorem remaining_nil (l : List Int) : remaining [] l = [] := by simp [remaining]

/-- The value of a one-element estimate. -/
theorem scalar_of {h : Heap (Val F)} {a : Arr} {A : List Int → Val F} {x : F}
    (hs : a.shape = [1]) (hA : h.Contains a A) (hx : A [0] = .num x) :
    scalar h (some a) = .ok x := by
  have hg := hA [0] (by rw [hs]; exact .cons (by decide) .nil)
  have hb : a.base = addr a.dims [0] := by
    match hd : a.dims with
    | [] => simp [Arr.shape, hd] at hs
    | [d] => simp [Arr.base, hd, addr]
    | _ :: _ :: _ => simp [Arr.shape, hd] at hs
  simp only [Heap.get, ← hb, hx] at hg
  simp only [scalar, Heap.load, Buf.load_some hg, Outcome.bind_ok]

theorem lift_mdev (o : StatOps F D) (X : List Int → F) (l : List (List Int)) (p : D × D × Int) :
    l.foldl (fun acc j => mdevStep (liftOps o) acc (.num (X j))) p =
      l.foldl (fun acc j => mdevStep o acc (X j)) p := rfl

theorem lift_dev (o : StatOps F D) (n : Int) (X : List Int → F) (l : List (List Int)) (p : D × D) :
    l.foldl (fun acc j => devStep (liftOps o) n acc (.num (X j))) p =
      l.foldl (fun acc j => devStep o n acc (X j)) p := rfl

/-- All elements of an array, each once. -/
def IsAll (shape : List Int) (p : List Int → Prop) (l : List (List Int)) : Prop :=
  l.Nodup ∧ ∀ j, j ∈ l ↔ ValidIdx shape j ∧ p j

theorem order_all (a : Arr) : Enumerates a.shape [] [0] (order a.shape [] [0]) :=
  order_enumerates (a := a) (o := [0]) ⟨by simp, by simp⟩ (by
    rw [remaining_nil]; exact .cons (by decide) .nil)

/-- The check of `correct_mask`. -/
theorem correctMask_spec {h : Heap (Val F)} {mask : Arr} {s : List Int} {M : List Int → UInt8}
    (y : Has h mask s (fun i => .flag (M i))) (hs : ∀ d ∈ s, 0 ≤ d) (junk : Int → Val F) :
    ((∀ j, ValidIdx s j → M j ≠ 0) → correctMask mask junk h = .throws .runtimeError) ∧
    ((∃ j, ValidIdx s j ∧ M j = 0) → ∃ h', correctMask mask junk h = .ok h' ∧ Ext h h') := by
  obtain ⟨h1, r, e1, e2, e3⟩ := y.scalar hs Val.isZero junk
  have hc := C53_count_true Val.truth h1 r _ (wf_of_shape (by rw [e2.shape]; exact hs)) e2.contains
    (order_all r)
  rw [e2.shape] at hc
  have hE := order_all r
  rw [e2.shape] at hE
  have ht : ∀ j, Val.truth (Val.isZero (Val.flag (M j) : Val F)) = decide (M j = 0) := by
    intro j
    simp only [Val.isZero, Val.truth]
    by_cases h0 : M j = 0 <;> simp [h0]
  simp only [ht] at hc
  constructor
  · intro hall
    have hz : (order s [] [0]).countP (fun j => decide (M j = 0)) = 0 := by
      rw [List.countP_eq_zero]
      intro j hj
      have := hall j ((hE.2 j).mp hj).1
      simpa using this
    rw [hz] at hc
    simp only [correctMask, e1, hc, Outcome.bind_ok]
    rfl
  · rintro ⟨j, hj, h0⟩
    have hpos : 0 < (order s [] [0]).countP (fun j => decide (M j = 0)) := by
      rw [List.countP_pos_iff]
      exact ⟨j, (hE.2 j).mpr ⟨hj, by rw [remaining_nil]; rfl⟩, by simpa using h0⟩
    refine ⟨h1, ?_, e3⟩
    simp only [correctMask, e1, hc, Outcome.bind_ok]
    rw [if_neg (by omega)]
    rfl

/-- The masked estimate, with the samples in the order in which they are combined. -/
theorem masked_noise (o : StatOps F D) (data mask : Arr) (X : List Int → F)
    (M : List Int → UInt8) (h : Heap (Val F)) (j : Nat → Int → Val F)
    (hshape : data.shape = mask.shape) (hwf : data.WF)
    (hlay : ∀ i, ValidIdx data.shape i → addr mask.dims i = addr data.dims i)
    (hX : h.Contains data (fun i => .num (X i))) (hM : h.Contains mask (fun i => .flag (M i)))
    (hld : data.blk < h.next) (hlm : mask.blk < h.next)
    (hsome : ∃ i, ValidIdx data.shape i ∧ M i = 0) :
    let l := unmasked data.shape [] M [0]
    IsAll data.shape (fun i => M i = 0) l ∧
      ∃ h' st, estimateNoise o .stddev true data mask j h = .ok (h', st) ∧
        st.noiseFloor h' = .ok (o.toV (o.div
          (l.foldl (fun acc i => o.add acc (o.toD (X i))) o.zero) (o.ofInt l.length))) ∧
        st.noisePower h' = .ok (mdevFinish o
          (l.foldl (fun acc i => mdevStep o acc (X i)) (o.zero, o.zero, 0))) ∧
        h.Frame h' := by
  intro l
  have hax : GoodAxes data [] := ⟨by simp, by simp⟩
  have hs : ∀ d ∈ data.shape, 0 ≤ d := shape_nonneg hwf
  obtain ⟨h1, c1, c2⟩ := (correctMask_spec (s := data.shape) ⟨hshape.symm, hlm, hM⟩ hs (j 0)).2 hsome
  have hX1 := Has.mono ⟨rfl, hld, hX⟩ c2
  have hM1 := Has.mono ⟨rfl, hlm, hM⟩ c2
  have hi0 : ValidIdx (orUnit 1 (remaining [] data.shape)) [0] := by
    rw [remaining_nil]; exact .cons (by decide) .nil
  obtain ⟨h', r, s, e1, e2, e3, e4, e5, e6, e7, e8, e9⟩ :=
    C54_masked_mean_stddev_partial (liftOps o) data mask (flagHeap h1) [] (j 1) (j 2) h1 _ M hax hwf
      hX1.contains (flagHeap_contains hM1.contains) hshape hlay hX1.lt (by
        intro i hi
        obtain ⟨k, k1, k2⟩ := hsome
        refine ⟨k, k1, ?_, k2⟩
        rw [remaining_nil] at hi ⊢
        match i, hi with
        | [x], hi =>
          simp only [orUnit, if_true, ValidIdx, List.forall₂_cons, List.Forall₂.nil, and_true] at hi
          simp only [orUnit, if_true]
          congr 1; omega)
  rw [remaining_nil] at e2 e3
  refine ⟨?_, h', ⟨some r, some s⟩, ?_, ?_, ?_, ?_⟩
  · obtain ⟨u1, u2⟩ := unmasked_mem hax hi0 M
    refine ⟨u1, fun k => ?_⟩
    rw [u2, remaining_nil]
    simp [orUnit]
  · simp only [estimateNoise, if_true, c1, e1, Outcome.bind_ok, Outcome.pure_eq]
  · have hf : ∀ (l : List (List Int)) (p : D × D × Int),
        (l.foldl (fun acc j => mdevStep o acc (X j)) p).1 =
          l.foldl (fun acc i => o.add acc (o.toD (X i))) p.1 := by
      intro l
      induction l with
      | nil => intro p; rfl
      | cons a l ih => intro p; exact ih _
    refine scalar_of e2 e7 ?_
    exact congrArg (fun z => Val.num (o.toV (o.div z
      (o.ofInt (unmasked data.shape [] M [0]).length))))
      (hf (unmasked data.shape [] M [0]) (o.zero, o.zero, 0))
  · exact scalar_of e3 e8 rfl
  · exact fun b hb => by rw [e9 b (by have := c2.next; omega), c2.frame b hb]

/-- **C63 (usable mask)**. With a mask of the data's shape and layout that leaves at least one
sample, the masked estimate of `estimate_noise_power` is the mean (floor) and the standard deviation
(power) of exactly the unflagged samples, as computed by the masked reductions of C54.

Missing from C63: masks stored in another layout than the data (`C54`), and the median-based
estimator (`C63_mad_throws`, `C63_mad_unmasked`). -/
theorem C63_masked_partial (o : StatOps F D) (data mask : Arr) (X : List Int → F)
    (M : List Int → UInt8) (h : Heap (Val F)) (j : Nat → Int → Val F)
    (hshape : data.shape = mask.shape) (hwf : data.WF)
    (hlay : ∀ i, ValidIdx data.shape i → addr mask.dims i = addr data.dims i)
    (hX : h.Contains data (fun i => .num (X i))) (hM : h.Contains mask (fun i => .flag (M i)))
    (hld : data.blk < h.next) (hlm : mask.blk < h.next)
    (hsome : ∃ i, ValidIdx data.shape i ∧ M i = 0) :
    ∃ l, IsAll data.shape (fun i => M i = 0) l ∧
      ∃ h' st, estimateNoise o .stddev true data mask j h = .ok (h', st) ∧
        st.noiseFloor h' = .ok (o.toV (o.div
          (l.foldl (fun acc i => o.add acc (o.toD (X i))) o.zero) (o.ofInt l.length))) ∧
        st.noisePower h' = .ok (mdevFinish o
          (l.foldl (fun acc i => mdevStep o acc (X i)) (o.zero, o.zero, 0))) ∧
        h.Frame h' :=
  ⟨_, masked_noise o data mask X M h j hshape hwf hlay hX hM hld hlm hsome⟩

/-- **C63 (no usable sample)**. When every sample is flagged the masked estimate throws; there is no
number, whichever estimator is asked for. -/
theorem C63_all_flagged (o : StatOps F D) (method : Estimator) (data mask : Arr)
    (M : List Int → UInt8) (h : Heap (Val F)) (j : Nat → Int → Val F) (hwf : mask.WF)
    (hM : h.Contains mask (fun i => .flag (M i))) (hlm : mask.blk < h.next)
    (hall : ∀ i, ValidIdx mask.shape i → M i ≠ 0) :
    estimateNoise o method true data mask j h = .throws .runtimeError := by
  have := (correctMask_spec ⟨rfl, hlm, hM⟩ (shape_nonneg hwf) (j 0)).1 hall
  simp only [estimateNoise, if_true, this]
  rfl

/-- The masked median-based estimate always throws. -/
theorem C63_mad_throws (o : StatOps F D) (data mask : Arr) (M : List Int → UInt8)
    (h : Heap (Val F)) (j : Nat → Int → Val F) (hwf : mask.WF)
    (hM : h.Contains mask (fun i => .flag (M i))) (hlm : mask.blk < h.next) :
    estimateNoise o .mad true data mask j h = .throws .runtimeError := by
  by_cases hall : ∀ i, ValidIdx mask.shape i → M i ≠ 0
  · exact C63_all_flagged o .mad data mask M h j hwf hM hlm hall
  · push Not at hall
    obtain ⟨h', e1, _⟩ := (correctMask_spec ⟨rfl, hlm, hM⟩ (shape_nonneg hwf) (j 0)).2 hall
    simp only [estimateNoise, if_true, e1, Outcome.bind_ok]

/-- **Violation of C63.** The unmasked median-based estimate neither fails nor has a value: reading
the floor or the power of what it returns is undefined. -/
theorem C63_mad_unmasked (o : StatOps F D) (data mask : Arr) (h : Heap (Val F))
    (j : Nat → Int → Val F) :
    ∃ st, estimateNoise o .mad false data mask j h = .ok (h, st) ∧ st.noiseFloor h = .ub ∧
      st.noisePower h = .ub := ⟨⟨none, none⟩, rfl, rfl, rfl⟩

/-- **C75 fails: the "power" is a standard deviation.** In exact arithmetic, with a square root that
is right for the variance at hand, `noise_power()` squared is the variance of the unflagged samples,
and `noise_amplitude()` is the square root of their standard deviation. So the power is the variance
only when the variance is 0 or 1. -/
theorem C75_power_is_stddev (sqrt sqrtF : ℚ → ℚ) (data mask : Arr) (X : List Int → ℚ)
    (M : List Int → UInt8) (h : Heap (Val ℚ)) (j : Nat → Int → Val ℚ)
    (hshape : data.shape = mask.shape) (hwf : data.WF)
    (hlay : ∀ i, ValidIdx data.shape i → addr mask.dims i = addr data.dims i)
    (hX : h.Contains data (fun i => .num (X i))) (hM : h.Contains mask (fun i => .flag (M i)))
    (hld : data.blk < h.next) (hlm : mask.blk < h.next)
    (hsome : ∃ i, ValidIdx data.shape i ∧ M i = 0) :
    ∃ h' st, estimateNoise (ratOps sqrt) .stddev true data mask j h = .ok (h', st) ∧
      ∀ l, IsAll data.shape (fun i => M i = 0) l →
        let mean := (l.map X).sum / l.length
        let var := (l.map (fun i => (X i - mean) ^ 2)).sum / l.length
        st.noiseFloor h' = .ok mean ∧ st.noisePower h' = .ok (sqrt var) ∧
        st.noiseAmplitude sqrtF h' = .ok (sqrtF (sqrt var)) ∧
        (sqrt var * sqrt var = var → sqrt var = var → var = 0 ∨ var = 1) := by
  obtain ⟨l', hl', h', st, e1, e2, e3, _⟩ := C63_masked_partial (ratOps sqrt) data mask X M h j
    hshape hwf hlay hX hM hld hlm hsome
  refine ⟨h', st, e1, fun l hl => ?_⟩
  have hp : l'.Perm l := by
    rw [List.perm_ext_iff_of_nodup hl'.1 hl.1]
    intro k
    rw [hl'.2, hl.2]
  have hne : l' ≠ [] := by
    obtain ⟨i, i1, i2⟩ := hsome
    exact List.ne_nil_of_mem ((hl'.2 i).mpr ⟨i1, i2⟩)
  have hmean : (l'.map X).sum / l'.length = (l.map X).sum / l.length := by
    rw [(hp.map X).sum_eq, hp.length_eq]
  have hpow : st.noisePower h' = .ok (sqrt ((l.map (fun i =>
      (X i - (l.map X).sum / l.length) ^ 2)).sum / l.length)) := by
    have hz : ((ratOps sqrt).zero, (ratOps sqrt).zero, (0 : Int)) = ((0 : ℚ), (0 : ℚ), (0 : Int)) := rfl
    rw [e3, hz, C54_exact_masked_stddev sqrt X l' hne, hmean, (hp.map _).sum_eq, hp.length_eq]
  refine ⟨?_, hpow, ?_, ?_⟩
  · rw [e2]
    have := foldl_add_sum X l' 0
    simp only [ratOps, id, Int.cast_natCast]
    rw [this, zero_add, hmean]
  · have hp2 : scalar h' st.power = _ := hpow
    simp only [NoiseStats.noiseAmplitude, hp2, Outcome.bind_ok]
    rfl
  · intro hsq heq
    rw [heq] at hsq
    have : (List.map (fun i => (X i - (List.map X l).sum / l.length) ^ 2) l).sum / l.length *
      ((List.map (fun i => (X i - (List.map X l).sum / l.length) ^ 2) l).sum / l.length - 1) = 0 := by
      linarith
    rcases mul_eq_zero.mp this with h0 | h1
    · exact .inl h0
    · right; linarith

-- concrete case: of 9, 1, 1, 1 the last is flagged; the floor is 11/3 and the variance 128/9
-- (`noisePower` here, because the square root is replaced by the identity)
example : (match estimateNoise (ratOps id) .stddev true (dense 0 [2, 2]) (dense 1 [2, 2])
    (fun _ _ => .num 0) grid with
    | .ok (h, st) => (match st.noiseFloor h, st.noisePower h with
      | .ok x, .ok y => some (x, y)
      | _, _ => none)
    | _ => none) = some ((11 : ℚ) / 3, (128 : ℚ) / 9) := by decide +kernel

-- the hypotheses of `C63_masked_partial` hold of it
example : (dense 0 [2, 2]).shape = (dense 1 [2, 2]).shape ∧
    (∀ i, ValidIdx (dense 0 [2, 2]).shape i → addr (dense 1 [2, 2]).dims i =
      addr (dense 0 [2, 2]).dims i) ∧
    ∃ i, ValidIdx (dense 0 [2, 2]).shape i ∧ (if i = [1, 1] then (1 : UInt8) else 0) = 0 :=
  ⟨rfl, fun _ _ => rfl, [0, 0], .cons (by decide) (.cons (by decide) .nil), by decide⟩

end Bliss.Flag
