import Verif.Gpu.ReduceProps
import Verif.Gpu.ReduceMore
import Verif.Float.Sum
import Mathlib.Algebra.BigOperators.Ring.List
import Mathlib.Data.Nat.Cast.Order.Field

/-!
# C88: how accurate the device sums are

The arithmetic of the kernels with every operation rounded. The rounding is any function with
relative error at most `u`; for `float`, round to nearest even, `u = 2^-24` (`rne_err`). Overflow,
subnormal results, infinities and NaN are left out: the rounding has unbounded range.
-/

namespace Bliss.Gpu

open Bliss.Nd Bliss.Stat Bliss.Float

/-- `float` arithmetic: every operation is the exact one, rounded. -/
def gpuRound (rnd : ℚ → ℚ) (sqrt : ℚ → ℚ) : GpuOps ℚ where
  zero := 0
  add := fun x y => rnd (x + y)
  sub := fun x y => rnd (x - y)
  mul := fun x y => rnd (x * y)
  div := fun x y => rnd (x / y)
  ofNat := fun n => rnd n
  sqrt := sqrt
  clip := fun x => if x < 0 then 0 else x
  gt := fun x y => decide (y < x)
  lowest := -(2 ^ 128)

theorem kahan_step (rnd sqrt : ℚ → ℚ) (c s v : ℚ) :
    kahan (gpuRound rnd sqrt) c s v = kahanStep rnd (c, s) v := rfl

/-! ## The tree -/

section Tree

variable {rnd : ℚ → ℚ} {u : ℚ}

/-- Every level of the tree adds at most `2u` to the relative error. -/
theorem tree_err (hr : RelErr rnd u) (hu : 0 ≤ u) (m fuel : Nat) (hf : m ≤ fuel)
    (g v H : Nat → ℚ) (δ : ℚ) (hδ : δ + 2 * m * u ≤ 1)
    (hg : ∀ t < 2 ^ m, |g t - v t| ≤ δ * H t) (hv : ∀ t < 2 ^ m, |v t| ≤ H t) :
    |(RKernel.halvings fuel (2 ^ m / 2)).foldl (RKernel.level fun x y => rnd (x + y)) g 0 -
      ((List.range (2 ^ m)).map v).sum| ≤ (δ + 2 * m * u) * ((List.range (2 ^ m)).map H).sum := by
  induction m generalizing fuel g v H δ with
  | zero =>
    have : RKernel.halvings fuel (2 ^ 0 / 2) = [] := by cases fuel <;> simp [RKernel.halvings]
    rw [this]
    simpa using hg 0 (by simp)
  | succ m ih =>
    obtain ⟨fuel, rfl⟩ : ∃ k, fuel = k + 1 := ⟨fuel - 1, by omega⟩
    have h2 : 2 ^ (m + 1) / 2 = 2 ^ m := by rw [pow_succ]; simp
    rw [h2, RKernel.halvings_pow m fuel, List.foldl_cons]
    have hm : (0 : ℚ) ≤ m := by positivity
    have hmu : 0 ≤ (m : ℚ) * u := mul_nonneg hm hu
    push_cast at hδ
    have hδ1 : δ ≤ 1 := by linarith
    have hsplit : ∀ w : Nat → ℚ, ((List.range (2 ^ (m + 1))).map w).sum =
        ((List.range (2 ^ m)).map fun t => w t + w (t + 2 ^ m)).sum := by
      intro w
      rw [pow_succ, Nat.mul_two, List.range_add, List.map_append, List.map_map, List.sum_append,
        ← List.sum_map_add]
      congr 2
      funext t
      simp [Nat.add_comm]
    rw [hsplit v, hsplit H]
    have := ih fuel (by omega) (RKernel.level (fun x y => rnd (x + y)) g (2 ^ m))
      (fun t => v t + v (t + 2 ^ m)) (fun t => H t + H (t + 2 ^ m)) (δ + 2 * u) (by linarith)
      (fun t ht => ?_) (fun t ht => ?_)
    · refine this.trans (le_of_eq ?_)
      push_cast
      ring
    · have e : RKernel.level (fun x y => rnd (x + y)) g (2 ^ m) t = rnd (g t + g (t + 2 ^ m)) := by
        simp [RKernel.level, ht]
      rw [e]
      have ht1 : t < 2 ^ (m + 1) := by rw [pow_succ]; omega
      have ht2 : t + 2 ^ m < 2 ^ (m + 1) := by rw [pow_succ]; omega
      have a1 := hg t ht1
      have a2 := hg _ ht2
      have b1 := hv t ht1
      have b2 := hv _ ht2
      have c := hr (g t + g (t + 2 ^ m))
      generalize g t = x at *
      generalize g (t + 2 ^ m) = y at *
      generalize v t = p at *
      generalize v (t + 2 ^ m) = q at *
      generalize H t = P at *
      generalize H (t + 2 ^ m) = Q at *
      have hP : 0 ≤ P := (abs_nonneg _).trans b1
      have hQ : 0 ≤ Q := (abs_nonneg _).trans b2
      have d1 : |x + y| ≤ 2 * (P + Q) := by
        have : x + y = ((x - p) + (y - q)) + (p + q) := by ring
        rw [this]
        have := abs_add_le ((x - p) + (y - q)) (p + q)
        have := abs_add_le (x - p) (y - q)
        have := abs_add_le p q
        have : δ * P ≤ 1 * P := mul_le_mul_of_nonneg_right hδ1 hP
        have : δ * Q ≤ 1 * Q := mul_le_mul_of_nonneg_right hδ1 hQ
        linarith
      have d2 : u * |x + y| ≤ u * (2 * (P + Q)) := mul_le_mul_of_nonneg_left d1 hu
      have : rnd (x + y) - (p + q) = (rnd (x + y) - (x + y)) + ((x - p) + (y - q)) := by ring
      rw [this]
      have := abs_add_le (rnd (x + y) - (x + y)) ((x - p) + (y - q))
      have := abs_add_le (x - p) (y - q)
      linarith
    · have ht1 : t < 2 ^ (m + 1) := by rw [pow_succ]; omega
      have ht2 : t + 2 ^ m < 2 ^ (m + 1) := by rw [pow_succ]; omega
      have := abs_add_le (v t) (v (t + 2 ^ m))
      have := hv t ht1
      have := hv _ ht2
      linarith

end Tree

/-! ## The elements of one thread -/

theorem gridStride_length {B n t : Nat} (hB : 0 < B) (ht : t < B) :
    (gridStride B n t).length ≤ n / B + 1 := by
  have h1 : (gridStride B n t).Nodup := gridStride_nodup hB
  have h2 : gridStride B n t ⊆ (List.range (n / B + 1)).map fun j => t + j * B := by
    intro r hr
    obtain ⟨h3, h4⟩ := (mem_gridStride hB).1 hr
    obtain ⟨j, rfl⟩ : ∃ j, r = t + j * B := by
      have := gridStride_owner hB ht hr
      refine ⟨r / B, ?_⟩
      have := Nat.mod_add_div r B
      rw [Nat.mul_comm] at this
      omega
    refine List.mem_map.2 ⟨j, List.mem_range.2 ?_, rfl⟩
    have : j ≤ n / B := (Nat.le_div_iff_mul_le hB).2 (by omega)
    omega
  have := (h1.subperm h2).length_le
  simpa using this

theorem thread_length {n t : Nat} (hn : 0 < n) (ht : t < RKernel.blockSize n) {u : ℚ} (hu : 0 ≤ u)
    (hu' : u ≤ 2 ^ (-13 : ℤ)) (hnu : n * u ≤ 16) :
    ((gridStride (RKernel.blockSize n) n t).length : ℚ) * u ≤ 1 / 16 := by
  have e : (2 : ℚ) ^ (-13 : ℤ) = 1 / 8192 := by norm_num
  rw [e] at hu'
  have hB : 0 < RKernel.blockSize n := by omega
  have hl := gridStride_length (n := n) hB ht
  by_cases h : n < 512
  · have h1 : (gridStride (RKernel.blockSize n) n t).length ≤ 512 := by
      have := Nat.div_le_self n (RKernel.blockSize n)
      omega
    have h2 : ((gridStride (RKernel.blockSize n) n t).length : ℚ) ≤ 512 := by exact_mod_cast h1
    calc _ ≤ 512 * u := mul_le_mul_of_nonneg_right h2 hu
      _ ≤ 1 / 16 := by linarith
  · have hb : RKernel.blockSize n = 512 := by unfold RKernel.blockSize; rw [if_neg h]
    rw [hb] at hl ⊢
    have h3 : ((gridStride 512 n t).length : ℚ) ≤ n / 512 + 1 := by
      have : ((gridStride 512 n t).length : ℚ) ≤ ((n / 512 + 1 : Nat) : ℚ) := by exact_mod_cast hl
      refine this.trans ?_
      push_cast
      have := @Nat.cast_div_le ℚ _ _ _ n 512
      push_cast at this
      linarith
    calc _ ≤ ((n : ℚ) / 512 + 1) * u := mul_le_mul_of_nonneg_right h3 hu
      _ ≤ 1 / 16 := by linarith

namespace RKernel

variable {V Acc L σ : Type} {G : Nat} {s0 : Mem RAddr (RCell V Acc)}

/-- A component of the cells and registers that is a compensated sum of the items with `p`. -/
structure KahanPart (K : RKernel V Acc L σ) (M : K.Sem s0 G) (rnd : ℚ → ℚ) (π : Acc → ℚ)
    (ρ : L → ℚ) (p : List Nat → Bool) (v : List Nat → ℚ) (nrm : ℚ → ℚ) : Prop where
  merge : ∀ x y, π (K.merge x y) = rnd (π x + π y)
  zero : π K.zero = 0
  comp : ρ K.comp = 0
  step : ∀ i c x, (ρ (M.f i c x).1, π (M.f i c x).2) =
    if p i then kahanStep rnd (ρ c, π x) (v i) else (ρ c, π x)
  norm : ∀ x, π (K.norm x) = nrm (π x)

theorem foldl_level {π : Acc → ℚ} {merge : Acc → Acc → Acc} {add : ℚ → ℚ → ℚ}
    (h : ∀ x y, π (merge x y) = add (π x) (π y)) (l : List Nat) (g : Nat → Acc) (t : Nat) :
    π (l.foldl (level merge) g t) = l.foldl (level add) (fun t => π (g t)) t := by
  induction l generalizing g with
  | nil => rfl
  | cons s l ih =>
    rw [List.foldl_cons, List.foldl_cons, ih]
    have : (fun t => π (level merge g s t)) = level add (fun t => π (g t)) s := by
      funext t
      simp only [level]
      split
      · exact h _ _
      · rfl
    rw [this]

/-- What the threads of a block accumulate when they all begin with compensation 0. -/
theorem total_err {K : RKernel V Acc L σ} {M : K.Sem s0 G} {rnd : ℚ → ℚ} {π : Acc → ℚ} {ρ : L → ℚ}
    {p : List Nat → Bool} {v : List Nat → ℚ} {nrm : ℚ → ℚ} (P : KahanPart K M rnd π ρ p v nrm)
    {u : ℚ} (hr : RelErr rnd u) (hu : 0 ≤ u) (hu' : u ≤ 2 ^ (-13 : ℤ)) (hn : 0 < K.n)
    (hnu : K.n * u ≤ 16) (w δ : ℚ) (hδ : δ + 18 * u ≤ 1) (hw : 0 ≤ w)
    (hnorm : ∀ x T H : ℚ, |x - T| ≤ 6 * u * H → |T| ≤ H → |nrm x - w * T| ≤ δ * (w * H))
    (k : Nat) {xs : List ℚ}
    (hxs : xs = ((List.range K.n).filter fun r => p (K.idx k r)).map fun r => v (K.idx k r)) :
    |π (M.total (blockSize K.n) k fun _ => K.comp) - w * xs.sum| ≤
      (δ + 18 * u) * (w * absSum xs) := by
  have e13 : (2 : ℚ) ^ (-13 : ℤ) = 1 / 8192 := by norm_num
  have hacc : ∀ (l : List Nat) (c : L) (x : Acc),
      (ρ (M.accum k l c x).1, π (M.accum k l c x).2) =
      ((l.filter fun r => p (K.idx k r)).map fun r => v (K.idx k r)).foldl (kahanStep rnd)
        (ρ c, π x) := by
    intro l
    induction l with
    | nil => intro c x; rfl
    | cons r l ih =>
      intro c x
      simp only [Sem.accum, ih, P.step]
      by_cases hp : p (K.idx k r) <;> simp [hp]
  obtain ⟨m, hm9, hB⟩ := blockSize_pow hn
  have hBpos : 0 < blockSize K.n := by rw [hB]; exact Nat.two_pow_pos m
  have hm9' : (m : ℚ) ≤ 9 := by exact_mod_cast hm9
  let ys : Nat → List ℚ := fun t =>
    ((gridStride (blockSize K.n) K.n t).filter fun r => p (K.idx k r)).map fun r => v (K.idx k r)
  have hcell : ∀ t, π (M.part (blockSize K.n) k t K.comp).2 = nrm (kahanSum rnd (ys t)).2 := by
    intro t
    have := hacc (gridStride (blockSize K.n) K.n t) K.comp K.zero
    rw [P.comp, P.zero] at this
    simp only [Sem.part, P.norm]
    exact congrArg (fun q : ℚ × ℚ => nrm q.2) this
  have hlen : ∀ t < blockSize K.n, ((ys t).length : ℚ) * u ≤ 1 / 16 := by
    intro t ht
    refine le_trans (mul_le_mul_of_nonneg_right ?_ hu) (thread_length hn ht hu hu' hnu)
    simp only [ys, List.length_map]
    exact_mod_cast List.length_filter_le _ _
  have hmu : (m : ℚ) * u ≤ 9 * u := mul_le_mul_of_nonneg_right hm9' hu
  have h := tree_err hr hu m (blockSize K.n) (by rw [hB]; exact Nat.lt_two_pow_self.le)
    (fun t => π (M.part (blockSize K.n) k t K.comp).2) (fun t => w * (ys t).sum)
    (fun t => w * absSum (ys t)) δ (by linarith)
    (fun t ht => by
      rw [← hB] at ht
      rw [hcell]
      exact hnorm _ _ _ (kahanSum_err hr hu (by rw [e13] at hu'; linarith) _ (hlen t ht))
        (abs_sum_le _))
    (fun t _ => by
      rw [abs_mul, abs_of_nonneg hw]
      exact mul_le_mul_of_nonneg_left (abs_sum_le _) hw)
  rw [← hB] at h
  have hsum : ∀ q : Nat → ℚ, ((List.range (blockSize K.n)).map fun t =>
      (((gridStride (blockSize K.n) K.n t).filter fun r => p (K.idx k r)).map q).sum).sum =
      (((List.range K.n).filter fun r => p (K.idx k r)).map q).sum := by
    intro q
    rw [← (((gridStride_perm (n := K.n) hBpos).filter _).map q).sum_eq, List.filter_flatMap,
      List.map_flatMap, List.flatMap, List.sum_flatten, List.map_map]
    rfl
  have e1 : ((List.range (blockSize K.n)).map fun t => w * (ys t).sum).sum = w * xs.sum := by
    rw [List.sum_map_mul_left, hxs]
    exact congrArg (w * ·) (hsum _)
  have e2 : ((List.range (blockSize K.n)).map fun t => w * absSum (ys t)).sum = w * absSum xs := by
    rw [List.sum_map_mul_left, hxs]
    have := hsum fun r => |v (K.idx k r)|
    simp only [ys, absSum, List.map_map]
    exact congrArg (w * ·) this
  rw [e1, e2] at h
  unfold Sem.total root
  rw [foldl_level (π := π) (add := fun x y => rnd (x + y)) P.merge]
  refine h.trans (mul_le_mul_of_nonneg_right ?_ (mul_nonneg hw (absSum_nonneg _)))
  linarith

/-- With at most one result per block, the registers are at their initial values. -/
theorem regs_few {K : RKernel V Acc L σ} (M : K.Sem s0 G) (B : Nat) {k : Nat} (hk : k < G) :
    M.regs B k = fun _ => K.comp := by
  funext t
  simp only [Sem.regs, Nat.div_eq_of_lt hk, Sem.regsFrom]

end RKernel

/-! ## Sum and mean -/

theorem prod_foldl (l : List Int) (x : Int) : l.foldl (· * ·) x = x * l.prod := by
  induction l generalizing x with
  | nil => simp
  | cons y l ih => simp [ih, mul_assoc]

/-- The elements of result `k`, as multi-indices. -/
theorem elements_perm {a : Arr} {axes i : List Int} (hax : GoodAxes a axes)
    (hpos : ∀ s ∈ a.shape, 0 < s) {k : Nat}
    (h1 : indexOf (orUnit 1 (remaining axes a.shape)) k = i)
    (h2 : remaining axes a.shape = [] → k = 0) {l : List (List Int)}
    (hl : Enumerates a.shape axes i l) (p : List Int → Bool) (X : List Int → ℚ) :
    ((((List.range (count a axes).toNat).filter fun r =>
      p ((digits a.shape (axisFlags a axes) r k).1.map fun (n : Nat) => (n : Int))).map fun r =>
      X ((digits a.shape (axisFlags a axes) r k).1.map fun (n : Nat) => (n : Int)))).Perm
      ((l.filter p).map X) := by
  have hE := elements_enumerate (a := a) (axes := axes) (k := k) hpos h2
  rw [h1] at hE
  have hp := ((enumerates_perm hE hl).filter p).map X
  refine List.Perm.trans (List.Perm.of_eq ?_) hp
  unfold elements
  rw [List.filter_map, List.map_map, ← count_redSize hax hpos]
  rfl

theorem absSum_map {α : Type} (X : α → ℚ) (l : List α) :
    absSum (l.map X) = (l.map fun j => |X j|).sum := by
  unfold absSum
  rw [List.map_map]
  rfl

theorem absSum_perm {xs ys : List ℚ} (h : xs.Perm ys) : absSum xs = absSum ys :=
  (h.map _).sum_eq

section Bounds

variable {rnd : ℚ → ℚ} {u : ℚ}

/-- Division by a rounded count. -/
theorem div_err (hr : RelErr rnd u) (hu : 0 ≤ u) (hu' : u ≤ 2 ^ (-13 : ℤ)) {n ε x T H : ℚ}
    (hn : 0 < n) (hε0 : 0 ≤ ε) (hε : ε ≤ 24 * u) (hx : |x - T| ≤ ε * H) (hT : |T| ≤ H) :
    |rnd (x / rnd n) - T / n| ≤ (ε + 3 * u) * (H / n) := by
  have e13 : (2 : ℚ) ^ (-13 : ℤ) = 1 / 8192 := by norm_num
  rw [e13] at hu'
  have h1 := hr n
  rw [abs_of_pos hn] at h1
  have h2 := hr (x / rnd n)
  generalize rnd (x / rnd n) = z at *
  generalize rnd n = N at *
  rw [abs_le] at h1
  have hun : u * n ≤ 1 / 8192 * n := mul_le_mul_of_nonneg_right hu' hn.le
  have hN : 0 < N := by linarith
  have hH : 0 ≤ H := (abs_nonneg _).trans hT
  -- everything relative to `q = H / n`
  have hinv : H / N ≤ (1 + 2 * u) * (H / n) := by
    rw [div_le_iff₀ hN]
    have : n ≤ (1 + 2 * u) * N := by nlinarith
    calc H = H / n * n := by field_simp
      _ ≤ H / n * ((1 + 2 * u) * N) := mul_le_mul_of_nonneg_left this (by positivity)
      _ = (1 + 2 * u) * (H / n) * N := by ring
  have hq : 0 ≤ H / n := by positivity
  have h3 : |x / N - T / n| ≤ (ε + u) * (H / N) := by
    have e : x / N - T / n = ((x - T) + T * ((n - N) / n)) / N := by
      field_simp
      ring
    rw [e, abs_div, abs_of_pos hN, show (ε + u) * (H / N) = (ε + u) * H / N by ring]
    refine div_le_div_of_nonneg_right ?_ hN.le
    have h4 : |(n - N) / n| ≤ u := by
      rw [abs_div, abs_of_pos hn, div_le_iff₀ hn, abs_le]
      constructor <;> linarith
    calc |x - T + T * ((n - N) / n)| ≤ |x - T| + |T| * |(n - N) / n| := by
          rw [← abs_mul]; exact abs_add_le _ _
      _ ≤ ε * H + H * u := add_le_add hx (mul_le_mul hT h4 (abs_nonneg _) hH)
      _ = (ε + u) * H := by ring
  have h4 : |x / N| ≤ (1 + ε) * (H / N) := by
    rw [abs_div, abs_of_pos hN, mul_div_assoc']
    refine div_le_div_of_nonneg_right ?_ hN.le
    have : x = (x - T) + T := by ring
    calc |x| = |(x - T) + T| := by rw [← this]
      _ ≤ |x - T| + |T| := abs_add_le _ _
      _ ≤ (1 + ε) * H := by linarith
  have h5 : |z - T / n| ≤ (ε + u) * (H / N) + u * ((1 + ε) * (H / N)) := by
    have : z - T / n = (x / N - T / n) + (z - x / N) := by ring
    rw [this]
    refine (abs_add_le _ _).trans (add_le_add h3 (h2.trans (mul_le_mul_of_nonneg_left h4 hu)))
  refine h5.trans ?_
  have e : (ε + u) * (H / N) + u * ((1 + ε) * (H / N)) = (ε + 2 * u + u * ε) * (H / N) := by ring
  rw [e]
  have hue : 0 ≤ u * ε := mul_nonneg hu hε0
  have hue' : u * ε ≤ 1 / 8192 * ε := mul_le_mul_of_nonneg_right hu' hε0
  calc (ε + 2 * u + u * ε) * (H / N) ≤ (ε + 2 * u + u * ε) * ((1 + 2 * u) * (H / n)) :=
        mul_le_mul_of_nonneg_left hinv (by linarith)
    _ = ((ε + 2 * u + u * ε) * (1 + 2 * u)) * (H / n) := by ring
    _ ≤ (ε + 3 * u) * (H / n) := by
        refine mul_le_mul_of_nonneg_right ?_ hq
        have k1 : u * (ε + 2 * u + u * ε) ≤ 1 / 8192 * (ε + 2 * u + u * ε) :=
          mul_le_mul_of_nonneg_right hu' (by linarith)
        nlinarith

/-- `E[x²] - E[x]²` from a rounded mean and a rounded mean of rounded squares. -/
theorem variance_err (sqrt : ℚ → ℚ) (hr : RelErr rnd u) (hu : 0 ≤ u) (hu' : u ≤ 2 ^ (-13 : ℤ))
    (X : List Int → ℚ) (l : List (List Int)) (hne : l ≠ []) {m m2 : ℚ}
    (hm : |m - (l.map X).sum / l.length| ≤ 27 * u * (absSum (l.map X) / l.length))
    (hm2 : |m2 - (l.map fun j => rnd (X j * X j)).sum / l.length| ≤
      27 * u * (absSum (l.map fun j => rnd (X j * X j)) / l.length)) :
    |variance (gpuRound rnd sqrt) m m2 - popVar X l| ≤
      100 * u * ((l.map fun j => X j ^ 2).sum / l.length) := by
  have e13 : (2 : ℚ) ^ (-13 : ℤ) = 1 / 8192 := by norm_num
  rw [e13] at hu'
  have hlen : (0 : ℚ) < l.length := by
    have := List.length_pos_of_ne_nil hne
    exact_mod_cast this
  -- the exact moments
  have hpv := popVar_eq X l hne
  have hpv' := popVar_eq (fun j => |X j|) l hne
  have hpos := popVar_nonneg X l
  have hpos' := popVar_nonneg (fun j => |X j|) l
  have esq : ∀ j, |X j| * |X j| = X j * X j := fun j => abs_mul_abs_self _
  simp only [esq] at hpv'
  have esq2 : (l.map fun j => X j ^ 2) = l.map fun j => X j * X j := by
    apply List.map_congr_left
    intro j _
    ring
  rw [esq2]
  have eabs : absSum (l.map X) = (l.map fun j => |X j|).sum := by simp [absSum]; rfl
  rw [eabs] at hm
  have hTA : |(l.map X).sum / l.length| ≤ (l.map fun j => |X j|).sum / l.length := by
    rw [abs_div, abs_of_pos hlen, ← eabs]
    exact div_le_div_of_nonneg_right (abs_sum_le _) hlen.le
  -- the rounded squares
  have hq : ∀ l : List (List Int),
      |(l.map fun j => rnd (X j * X j)).sum - (l.map fun j => X j * X j).sum| ≤
        u * (l.map fun j => X j * X j).sum ∧
      absSum (l.map fun j => rnd (X j * X j)) ≤ (1 + u) * (l.map fun j => X j * X j).sum := by
    intro l
    induction l with
    | nil => simp [absSum]
    | cons j l ih =>
      have h1 := hr (X j * X j)
      rw [abs_of_nonneg (mul_self_nonneg (X j))] at h1
      simp only [List.map_cons, List.sum_cons, absSum] at ih ⊢
      generalize rnd (X j * X j) = z at *
      have h2 : |z| ≤ (1 + u) * (X j * X j) := by
        have : z = (z - X j * X j) + X j * X j := by ring
        calc |z| = |(z - X j * X j) + X j * X j| := by rw [← this]
          _ ≤ |z - X j * X j| + |X j * X j| := abs_add_le _ _
          _ ≤ _ := by rw [abs_of_nonneg (mul_self_nonneg (X j))]; linarith
      refine ⟨?_, by linarith [ih.2]⟩
      have : ∀ a b : ℚ, z + a - (X j * X j + b) = (z - X j * X j) + (a - b) := by intros; ring
      rw [this]
      exact (abs_add_le _ _).trans (by linarith [ih.1])
  obtain ⟨q1, q2⟩ := hq l
  have q1' : |(l.map fun j => rnd (X j * X j)).sum / l.length -
      (l.map fun j => X j * X j).sum / l.length| ≤
        u * ((l.map fun j => X j * X j).sum / l.length) := by
    rw [← sub_div, abs_div, abs_of_pos hlen, mul_div_assoc']
    exact div_le_div_of_nonneg_right q1 hlen.le
  have q2' : absSum (l.map fun j => rnd (X j * X j)) / l.length ≤
      (1 + u) * ((l.map fun j => X j * X j).sum / l.length) := by
    rw [mul_div_assoc']
    exact div_le_div_of_nonneg_right q2 hlen.le
  generalize absSum (l.map fun j => rnd (X j * X j)) / l.length = Q at *
  generalize (l.map fun j => rnd (X j * X j)).sum / l.length = q at *
  generalize (l.map fun j => X j * X j).sum / l.length = S at *
  generalize (l.map fun j => |X j|).sum / l.length = A at *
  generalize (l.map X).sum / l.length = μ at *
  generalize popVar X l = v at *
  generalize popVar (fun j => |X j|) l = v' at *
  have hA : 0 ≤ A := (abs_nonneg _).trans hTA
  have hAS : A * A ≤ S := by linarith
  have hS : 0 ≤ S := (mul_nonneg hA hA).trans hAS
  have huS : 0 ≤ u * S := mul_nonneg hu hS
  have huuS : u * (u * S) ≤ 1 / 8192 * (u * S) := mul_le_mul_of_nonneg_right hu' huS
  have huS' : u * S ≤ 1 / 8192 * S := mul_le_mul_of_nonneg_right hu' hS
  have b2 : |m2 - S| ≤ 29 * (u * S) := by
    have : m2 - S = (m2 - q) + (q - S) := by ring
    rw [this]
    refine (abs_add_le _ _).trans ?_
    have : 27 * u * Q ≤ 27 * u * ((1 + u) * S) := mul_le_mul_of_nonneg_left q2' (by linarith)
    linarith
  have huA : u * A ≤ 1 / 8192 * A := mul_le_mul_of_nonneg_right hu' hA
  have hm' : |m| ≤ 101 / 100 * A := by
    have : m = (m - μ) + μ := by ring
    calc |m| = |(m - μ) + μ| := by rw [← this]
      _ ≤ |m - μ| + |μ| := abs_add_le _ _
      _ ≤ _ := by linarith
  have b1 : |m * m - μ * μ| ≤ 55 * (u * S) := by
    have : m * m - μ * μ = (m - μ) * (m + μ) := by ring
    rw [this, abs_mul]
    have h1 : |m + μ| ≤ 201 / 100 * A := (abs_add_le _ _).trans (by linarith)
    calc |m - μ| * |m + μ| ≤ (27 * u * A) * (201 / 100 * A) :=
          mul_le_mul hm h1 (abs_nonneg _) (mul_nonneg (by linarith) hA)
      _ = (27 * 201 / 100) * (u * (A * A)) := by ring
      _ ≤ 55 * (u * S) := by
        have := mul_le_mul_of_nonneg_left hAS hu
        linarith
  have hmm : |m * m| ≤ 11 / 10 * S := by
    rw [abs_mul]
    calc |m| * |m| ≤ (101 / 100 * A) * (101 / 100 * A) :=
          mul_le_mul hm' hm' (abs_nonneg _) (mul_nonneg (by norm_num) hA)
      _ ≤ 11 / 10 * S := by nlinarith
  have c1 := hr (m * m)
  have c2 := hr (m2 - rnd (m * m))
  simp only [variance, gpuRound]
  generalize rnd (m2 - rnd (m * m)) = z at *
  generalize rnd (m * m) = s at *
  have d1 : u * |m * m| ≤ 11 / 10 * (u * S) := by
    have := mul_le_mul_of_nonneg_left hmm hu
    linarith
  have d2 : |m2 - s| ≤ 3 * S := by
    have : m2 - s = (m2 - S) + S - ((s - m * m) + m * m) := by ring
    rw [this]
    have := abs_sub ((m2 - S) + S) ((s - m * m) + m * m)
    have := abs_add_le (m2 - S) S
    have := abs_add_le (s - m * m) (m * m)
    rw [abs_of_nonneg hS] at *
    linarith
  have d3 : u * |m2 - s| ≤ 3 * (u * S) := by
    have := mul_le_mul_of_nonneg_left d2 hu
    linarith
  have d4 : |z - v| ≤ 100 * u * S := by
    have : z - v = (z - (m2 - s)) + (m2 - S) - (s - m * m) - (m * m - μ * μ) := by
      rw [← hpv]; ring
    rw [this]
    have := abs_sub ((z - (m2 - s)) + (m2 - S) - (s - m * m)) (m * m - μ * μ)
    have := abs_sub ((z - (m2 - s)) + (m2 - S)) (s - m * m)
    have := abs_add_le (z - (m2 - s)) (m2 - S)
    linarith
  split
  · next hneg =>
    rw [zero_sub, abs_neg, abs_of_nonneg hpos]
    rw [abs_le] at d4
    linarith
  · exact d4

end Bounds

/-! ## The theorems -/

section Theorems

variable {rnd : ℚ → ℚ} {u : ℚ} {h : Heap ℚ} {hm : Heap UInt8} {a : Arr} {axes : List Int}
  {junk : Int → ℚ} {X : List Int → ℚ}

/-- With at most 1024 results every result is the first of its block. -/
theorem few_blocks {V : Type} {h : Heap V} {junk : Int → V} (hax : GoodAxes a axes)
    (hpos : ∀ s ∈ a.shape, 0 < s)
    (hfew : (orUnit 1 (remaining axes a.shape)).prod ≤ 1024) {k : Nat}
    (hk : k < (alloc h (outShape a axes) junk).2.numel.toNat) :
    k < RKernel.gridSize (alloc h (outShape a axes) junk).2.numel.toNat := by
  have hp := out_pos hax hpos
  obtain ⟨p1, -⟩ := alloc_props h (outShape a axes) junk (fun s hs => (hp s hs).le)
  have e : (alloc h (outShape a axes) junk).2.numel = (orUnit 1 (remaining axes a.shape)).prod := by
    unfold Arr.numel
    rw [p1, outShape_eq hax, prod_foldl, one_mul]
  rw [e] at hk ⊢
  unfold RKernel.gridSize
  omega

/-- A component of an accumulator with one output, when there are at most 1024 results. -/
theorem one_err {V Acc L : Type} {h : Heap V} {junk : Int → V} {sh : Nat → Nat → Acc}
    (hax : GoodAxes a axes) (hpos : ∀ s ∈ a.shape, 0 < s)
    (hr : a.shape.length ≤ 4) (hb : a.blk < h.next)
    (hfew : (orUnit 1 (remaining axes a.shape)).prod ≤ 1024)
    (item : List Nat → L → Acc → RProg V Acc (L × Acc))
    (zero : Acc) (comp : L) (norm : Acc → Acc) (merge : Acc → Acc → Acc) (write : Acc → V)
    (I : ∀ B G, (oneOut a (alloc h (outShape a axes) junk).2 axes item zero comp norm merge
      write).Items a.blk (reduceMem (alloc h (outShape a axes) junk).1 hm B G sh)) :
    ∃ R, DeviceReturns (fun out => oneOut a out axes item zero comp norm merge write) h hm a axes
        junk sh R ∧
      ∀ i, ValidIdx (orUnit 1 (remaining axes a.shape)) i → ∀ l, Enumerates a.shape axes i l →
        ∃ T : Acc, R i = write T ∧
          ∀ (π : Acc → ℚ) (ρ : L → ℚ) (p : List Int → Bool) (v : List Int → ℚ) (nrm : ℚ → ℚ)
            (rnd : ℚ → ℚ) (u w δ : ℚ),
            (∀ x y, π (merge x y) = rnd (π x + π y)) → π zero = 0 → ρ comp = 0 →
            (∀ x, π (norm x) = nrm (π x)) →
            (∀ B G i c x, (ρ ((I B G).f i c x).1, π ((I B G).f i c x).2) =
              if p (i.map fun (n : Nat) => (n : Int)) then
                kahanStep rnd (ρ c, π x) (v (i.map fun (n : Nat) => (n : Int))) else (ρ c, π x)) →
            RelErr rnd u → 0 ≤ u → u ≤ 2 ^ (-13 : ℤ) → l.length * u ≤ 16 → 0 ≤ w →
            δ ≤ 1 / 2 →
            (∀ x T H : ℚ, |x - T| ≤ 6 * u * H → |T| ≤ H → |nrm x - w * T| ≤ δ * (w * H)) →
            |π T - w * ((l.filter p).map v).sum| ≤
              (δ + 18 * u) * (w * absSum ((l.filter p).map v)) := by
  obtain ⟨R, r1, r2, r3, r4⟩ := one_returns (hm := hm) (sh := sh) (junk := junk) hax hpos hr hb item
    zero comp norm merge write I
  refine ⟨R, ⟨r1, r2, r3⟩, fun i hi l hl => ?_⟩
  obtain ⟨k, k1, k2, k3, k4, -⟩ := r4 i hi
  refine ⟨_, k4, ?_⟩
  intro π ρ p v nrm rnd u w δ a1 a2 a3 a4 a5 hrel hu hu' hlu hw hδ hnorm
  have hn := enumerates_length hax hpos hi hl
  have hp := elements_perm hax hpos k1 k2 hl p v
  have hregs := RKernel.regs_few ((one_fits (junk := junk) hax hpos hr hb item zero comp norm merge
    write).sem (I (RKernel.blockSize (count a axes).toNat)
      (RKernel.gridSize (alloc h (outShape a axes) junk).2.numel.toNat)))
    (RKernel.blockSize (count a axes).toNat) (few_blocks hax hpos hfew k3)
  have e13 : (2 : ℚ) ^ (-13 : ℤ) = 1 / 8192 := by norm_num
  have := RKernel.total_err (π := π) (ρ := ρ)
    (p := fun i => p (i.map fun (n : Nat) => (n : Int))) (nrm := nrm)
    (v := fun i => v (i.map fun (n : Nat) => (n : Int)))
    (M := (one_fits (junk := junk) hax hpos hr hb item zero comp norm merge write).sem
      (I (RKernel.blockSize (count a axes).toNat)
        (RKernel.gridSize (alloc h (outShape a axes) junk).2.numel.toNat)))
    { merge := a1, zero := a2, comp := a3, step := a5 _ _, norm := a4 }
    hrel hu hu' (n_pos hax hpos) (by rw [hn] at hlu; exact hlu) w δ
    (by rw [e13] at hu'; linarith) hw hnorm k rfl
  rw [← hp.sum_eq, ← absSum_perm hp]
  refine le_trans (le_of_eq ?_) this
  exact congrArg (fun c => |π (RKernel.Sem.total _ _ k c) - _|) hregs

theorem filter_all {α : Type} (l : List α) : l.filter (fun _ => true) = l := by simp

/-- **C88 (device sum).** With any rounding of relative error at most `u`, a sum on the device into
at most 1024 results, of at most `16/u` elements each, is off by at most `24u` times the sum of the
absolute values, under every schedule: the error does not grow with the number of elements. For
`float`, `u = 2^-24`.

Missing: more than 1024 results (`C88_compensation_leaks`), overflow, subnormal numbers, and the
arrays excluded by C85. -/
theorem C88_gpu_sum_partial (sqrt : ℚ → ℚ) (hr : RelErr rnd u) (hu : 0 ≤ u)
    (hu' : u ≤ 2 ^ (-13 : ℤ)) (sh : Nat → Nat → ℚ) (hin : DeviceInput h a axes)
    (hX : h.Contains a X) (hfew : (orUnit 1 (remaining axes a.shape)).prod ≤ 1024) :
    ∃ R, DeviceReturns (fun out => sumKernel (gpuRound rnd sqrt) a out axes) h hm a axes junk sh R ∧
      ∀ i, ValidIdx (orUnit 1 (remaining axes a.shape)) i → ∀ l, Enumerates a.shape axes i l →
        l.length * u ≤ 16 →
        |R i - (l.map X).sum| ≤ 24 * u * (l.map fun j => |X j|).sum := by
  have e13 : (2 : ℚ) ^ (-13 : ℤ) = 1 / 8192 := by norm_num
  obtain ⟨R, r1, r2⟩ := one_err (hm := hm) (sh := sh) (junk := junk) hin.axes hin.pos
    hin.rank hin.owned hfew (plainItem a (sumStep (gpuRound rnd sqrt))) 0 0 id
    (gpuRound rnd sqrt).add id
    (fun B G => plainItems (sumStep (gpuRound rnd sqrt)) rfl rfl hin.noOffset
      (alloc_contains hin hX))
  refine ⟨R, r1, fun i hi l hl hlu => ?_⟩
  obtain ⟨T, t1, t2⟩ := r2 i hi l hl
  have := t2 id id (fun _ => true) X id rnd u 1 (6 * u) (fun _ _ => rfl) rfl rfl (fun _ => rfl)
    (fun _ _ _ _ _ => rfl) hr hu hu' hlu (by norm_num) (by rw [e13] at hu'; linarith)
    (fun x T H h1 _ => by simpa using h1)
  rw [filter_all, one_mul, one_mul] at this
  rw [t1]
  rw [absSum_map] at this
  refine this.trans (le_of_eq ?_)
  ring

/-- The division by the number of elements before the tree. -/
theorem mean_norm (hr : RelErr rnd u) (hu : 0 ≤ u) (hu' : u ≤ 2 ^ (-13 : ℤ)) {n : ℚ} (hn : 0 < n)
    (x T H : ℚ) (h1 : |x - T| ≤ 6 * u * H) (h2 : |T| ≤ H) :
    |rnd (x / rnd n) - 1 / n * T| ≤ 9 * u * (1 / n * H) := by
  have := div_err hr hu hu' hn (by linarith) (by linarith) h1 h2
  rw [one_div, inv_mul_eq_div, inv_mul_eq_div]
  refine this.trans (le_of_eq ?_)
  ring

/-- **C88 (device mean).** Likewise off by at most `27u` times the mean of the absolute values.
Missing: as in `C88_gpu_sum_partial`. -/
theorem C88_gpu_mean_partial (sqrt : ℚ → ℚ) (hr : RelErr rnd u) (hu : 0 ≤ u)
    (hu' : u ≤ 2 ^ (-13 : ℤ)) (sh : Nat → Nat → ℚ) (hin : DeviceInput h a axes)
    (hX : h.Contains a X) (hfew : (orUnit 1 (remaining axes a.shape)).prod ≤ 1024) :
    ∃ R, DeviceReturns (fun out => meanKernel (gpuRound rnd sqrt) a out axes) h hm a axes junk sh R ∧
      ∀ i, ValidIdx (orUnit 1 (remaining axes a.shape)) i → ∀ l, Enumerates a.shape axes i l →
        l.length * u ≤ 16 →
        |R i - (l.map X).sum / l.length| ≤ 27 * u * ((l.map fun j => |X j|).sum / l.length) := by
  have e13 : (2 : ℚ) ^ (-13 : ℤ) = 1 / 8192 := by norm_num
  obtain ⟨R, r1, r2⟩ := one_err (hm := hm) (sh := sh) (junk := junk) hin.axes hin.pos
    hin.rank hin.owned hfew (plainItem a (sumStep (gpuRound rnd sqrt))) 0 0
    (fun x => (gpuRound rnd sqrt).div x ((gpuRound rnd sqrt).ofNat (count a axes).toNat))
    (gpuRound rnd sqrt).add id
    (fun B G => plainItems (sumStep (gpuRound rnd sqrt)) rfl rfl hin.noOffset
      (alloc_contains hin hX))
  refine ⟨R, r1, fun i hi l hl hlu => ?_⟩
  obtain ⟨T, t1, t2⟩ := r2 i hi l hl
  have hn := enumerates_length hin.axes hin.pos hi hl
  have hnp : (0 : ℚ) < ((count a axes).toNat : ℚ) := by exact_mod_cast n_pos hin.axes hin.pos
  have := t2 id id (fun _ => true) X (fun x => rnd (x / rnd ((count a axes).toNat : ℚ))) rnd u
    (1 / ((count a axes).toNat : ℚ)) (9 * u) (fun _ _ => rfl) rfl rfl (fun _ => rfl)
    (fun _ _ _ _ _ => rfl) hr hu hu' hlu (by positivity) (by rw [e13] at hu'; linarith)
    (mean_norm hr hu hu' hnp)
  rw [filter_all, one_div, inv_mul_eq_div, inv_mul_eq_div] at this
  rw [t1, hn]
  rw [absSum_map] at this
  refine this.trans (le_of_eq ?_)
  ring

/-- **C88 (device variance and standard deviation).** The variance is off by at most `100u` times
the mean *square*, and the standard deviation is the square root of such a variance. When the spread
is small against the mean this leaves no correct digit (`C88_gpu_variance_cancels`).
Missing: as in `C88_gpu_sum_partial`. -/
theorem C88_gpu_variance_partial (sqrt : ℚ → ℚ) (root : Bool) (hr : RelErr rnd u) (hu : 0 ≤ u)
    (hu' : u ≤ 2 ^ (-13 : ℤ)) (sh : Nat → Nat → ℚ × ℚ) (hin : DeviceInput h a axes)
    (hX : h.Contains a X) (hfew : (orUnit 1 (remaining axes a.shape)).prod ≤ 1024) :
    ∃ R, DeviceReturns (fun out => devKernel (gpuRound rnd sqrt) root a out axes) h hm a axes junk sh
        R ∧
      ∀ i, ValidIdx (orUnit 1 (remaining axes a.shape)) i → ∀ l, Enumerates a.shape axes i l →
        l.length * u ≤ 16 → ∃ v, R i = (if root then sqrt v else v) ∧
        |v - popVar X l| ≤ 100 * u * ((l.map fun j => X j ^ 2).sum / l.length) := by
  have e13 : (2 : ℚ) ^ (-13 : ℤ) = 1 / 8192 := by norm_num
  obtain ⟨R, r1, r2⟩ := one_err (hm := hm) (sh := sh) (junk := junk) hin.axes hin.pos
    hin.rank hin.owned hfew (plainItem a (squareStep (gpuRound rnd sqrt))) (0, 0) (0, 0)
    (fun x => ((gpuRound rnd sqrt).div x.1 ((gpuRound rnd sqrt).ofNat (count a axes).toNat),
      (gpuRound rnd sqrt).div x.2 ((gpuRound rnd sqrt).ofNat (count a axes).toNat)))
    (fun x y => ((gpuRound rnd sqrt).add x.1 y.1, (gpuRound rnd sqrt).add x.2 y.2))
    (fun x => let v := variance (gpuRound rnd sqrt) x.1 x.2;
      if root then (gpuRound rnd sqrt).sqrt v else v)
    (fun B G => plainItems (squareStep (gpuRound rnd sqrt)) rfl rfl hin.noOffset
      (alloc_contains hin hX))
  refine ⟨R, r1, fun i hi l hl hlu => ?_⟩
  obtain ⟨T, t1, t2⟩ := r2 i hi l hl
  have hn := enumerates_length hin.axes hin.pos hi hl
  have hnp : (0 : ℚ) < ((count a axes).toNat : ℚ) := by exact_mod_cast n_pos hin.axes hin.pos
  have hne : l ≠ [] := by
    rintro rfl
    have := n_pos hin.axes hin.pos
    simp at hn
    omega
  refine ⟨_, t1, variance_err sqrt hr hu hu' X l hne ?_ ?_⟩
  · have := t2 Prod.fst Prod.fst (fun _ => true) X
      (fun x => rnd (x / rnd ((count a axes).toNat : ℚ))) rnd u
      (1 / ((count a axes).toNat : ℚ)) (9 * u) (fun _ _ => rfl) rfl rfl (fun _ => rfl)
      (fun _ _ _ _ _ => rfl) hr hu hu' hlu (by positivity) (by rw [e13] at hu'; linarith)
      (mean_norm hr hu hu' hnp)
    rw [filter_all, one_div, inv_mul_eq_div, inv_mul_eq_div] at this
    rw [hn]
    refine this.trans (le_of_eq ?_)
    ring
  · have := t2 Prod.snd Prod.snd (fun _ => true) (fun j => rnd (X j * X j))
      (fun x => rnd (x / rnd ((count a axes).toNat : ℚ))) rnd u
      (1 / ((count a axes).toNat : ℚ)) (9 * u) (fun _ _ => rfl) rfl rfl (fun _ => rfl)
      (fun _ _ _ _ _ => rfl) hr hu hu' hlu (by positivity) (by rw [e13] at hu'; linarith)
      (mean_norm hr hu hu' hnp)
    rw [filter_all, one_div, inv_mul_eq_div, inv_mul_eq_div] at this
    rw [hn]
    refine this.trans (le_of_eq ?_)
    ring

/-! ## With a mask -/

/-- **C88 (device, masked).** The same bounds for the masked sum, mean, variance and standard
deviation, over the elements whose mask is 0. Missing: as in `C88_gpu_sum_partial`, and nothing
unmasked. -/
theorem C88_gpu_masked_partial (sqrt : ℚ → ℚ) (op : MaskedOp) (hr : RelErr rnd u) (hu : 0 ≤ u)
    (hu' : u ≤ 2 ^ (-13 : ℤ)) (m : Arr) (sh : Nat → Nat → ℚ × ℚ × Nat) (Y : List Int → UInt8)
    (hin : DeviceInput h a axes) (hX : h.Contains a X) (hY : DeviceMask hm a m Y)
    (hfew : (orUnit 1 (remaining axes a.shape)).prod ≤ 1024) :
    ∃ R, DeviceReturns (fun out => maskedKernel (gpuRound rnd sqrt) op a m out axes)
        h hm a axes junk sh R ∧
      ∀ i, ValidIdx (orUnit 1 (remaining axes a.shape)) i → ∀ l, Enumerates a.shape axes i l →
        l.length * u ≤ 16 → ∀ k, k = l.filter (fun j => Y j = 0) → k ≠ [] →
        match op with
        | .sum => |R i - (k.map X).sum| ≤ 24 * u * (k.map fun j => |X j|).sum
        | .mean =>
          |R i - (k.map X).sum / k.length| ≤ 27 * u * ((k.map fun j => |X j|).sum / k.length)
        | .stddev => ∃ v, R i = sqrt v ∧
          |v - popVar X k| ≤ 100 * u * ((k.map fun j => X j ^ 2).sum / k.length)
        | .var => |R i - popVar X k| ≤ 100 * u * ((k.map fun j => X j ^ 2).sum / k.length) := by
  have e13 : (2 : ℚ) ^ (-13 : ℤ) = 1 / 8192 := by norm_num
  have hu2 : 6 * u ≤ 1 / 2 := by rw [e13] at hu'; linarith
  obtain ⟨R, r1, r2⟩ := one_err (hm := hm) (sh := sh) (junk := junk) hin.axes hin.pos
    hin.rank hin.owned hfew (maskedItem a m (countStep (gpuRound rnd sqrt))) (0, 0, 0) (0, 0) id
    (mergeCount (gpuRound rnd sqrt)) (maskedWrite (gpuRound rnd sqrt) op)
    (fun B G => maskedItems (countStep (gpuRound rnd sqrt)) rfl rfl hin.noOffset
      (alloc_contains hin hX) hY.shape hY.noOffset hY.contains)
  refine ⟨R, r1, fun i hi l hl hlu k hk hne => ?_⟩
  obtain ⟨T, t1, t2⟩ := r2 i hi l hl
  have c1 := t2 (fun x => x.1) Prod.fst (fun j => decide (Y j = 0)) X id rnd u 1 (6 * u)
    (fun _ _ => rfl) rfl rfl (fun _ => rfl)
    (fun B G i c x => by
      simp only [maskedItems, decide_eq_true_eq]
      split <;> rfl) hr hu hu' hlu (by norm_num) hu2
    (fun x T H h1 _ => by simpa using h1)
  have c2 := t2 (fun x => x.2.1) Prod.snd (fun j => decide (Y j = 0)) (fun j => rnd (X j * X j)) id
    rnd u 1 (6 * u) (fun _ _ => rfl) rfl rfl (fun _ => rfl)
    (fun B G i c x => by
      simp only [maskedItems, decide_eq_true_eq]
      split <;> rfl) hr hu hu' hlu (by norm_num) hu2
    (fun x T H h1 _ => by simpa using h1)
  have c3 := t2 (fun x => (x.2.2 : ℚ)) (fun _ => 0) (fun j => decide (Y j = 0)) (fun _ => 1) id
    id 0 1 0 (fun x y => by simp [mergeCount]) (by simp) rfl (fun _ => rfl)
    (fun B G i c x => by
      simp only [maskedItems, decide_eq_true_eq]
      split <;> simp [countStep, kahanStep]) (fun z => by simp) le_rfl (by rw [e13]; norm_num)
    (by simp) (by norm_num) (by norm_num)
    (fun x T H h1 _ => by simpa using h1)
  rw [← hk] at c1 c2 c3
  have hcount : (T.2.2 : ℚ) = k.length := by
    simp only [List.map_const', List.sum_replicate, nsmul_eq_mul, mul_one, one_mul, mul_zero, add_zero,
      zero_mul, abs_nonpos_iff, sub_eq_zero] at c3
    exact c3
  have hkp : (0 : ℚ) < k.length := by
    have := List.length_pos_of_ne_nil hne
    exact_mod_cast this
  rw [one_mul, one_mul] at c1 c2
  have d1 : |T.1 - (k.map X).sum| ≤ 24 * u * absSum (k.map X) := c1.trans (le_of_eq (by ring))
  have d2 : |T.2.1 - (k.map fun j => rnd (X j * X j)).sum| ≤
      24 * u * absSum (k.map fun j => rnd (X j * X j)) := c2.trans (le_of_eq (by ring))
  have m1 := div_err hr hu hu' hkp (by linarith) le_rfl d1 (abs_sum_le _)
  have m2 := div_err hr hu hu' hkp (by linarith) le_rfl d2 (abs_sum_le _)
  rw [show 24 * u + 3 * u = 27 * u by ring] at m1 m2
  rw [← hcount] at m1 m2
  have hv : |variance (gpuRound rnd sqrt) (rnd (T.1 / rnd (T.2.2 : ℚ)))
      (rnd (T.2.1 / rnd (T.2.2 : ℚ))) - popVar X k| ≤
      100 * u * ((k.map fun j => X j ^ 2).sum / k.length) :=
    variance_err sqrt hr hu hu' X k hne (by rw [← hcount]; exact m1) (by rw [← hcount]; exact m2)
  rw [hcount, absSum_map] at m1
  rw [absSum_map] at d1
  cases op with
  | sum => rw [t1]; exact d1
  | mean =>
    rw [t1]
    refine le_trans (le_of_eq ?_) m1
    rw [← hcount]
    rfl
  | stddev => exact ⟨_, t1, hv⟩
  | var => rw [t1]; exact hv

end Theorems

end Bliss.Gpu
