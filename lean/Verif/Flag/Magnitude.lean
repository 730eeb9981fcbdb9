import Verif.Flag.Basic
import Mathlib.Tactic.IntervalCases
import Mathlib.Tactic.Ring

/-!
# C61: magnitude and spectral kurtosis flags
-/

namespace Bliss.Flag

open Bliss.Nd Bliss.Stat

variable {F : Type}

/-- Adding a one-bit flag where it is not set is setting it; the four flags in question. -/
theorem add_bit_or (m k : UInt8) (hk : k = 2 ∨ k = 4 ∨ k = 16 ∨ k = 32) (h : m &&& k = 0) :
    m + k = m ||| k := by
  have key : ∀ x : Fin 256, ∀ k ∈ [(2 : UInt8), 4, 16, 32], (UInt8.ofNat x.val) &&& k = 0 →
      (UInt8.ofNat x.val) + k = (UInt8.ofNat x.val) ||| k := by decide +kernel
  have hm : m = UInt8.ofNat (⟨m.toNat, UInt8.toNat_lt m⟩ : Fin 256).val := by simp
  rw [hm] at h ⊢
  exact key _ k (by simpa using hk) h

/-- What `flag_magnitude` adds, for every mask. -/
theorem magnitude_spec (gt : F → Bool) {data mask : Arr} {s : List Int} {X : List Int → F}
    {M : List Int → UInt8} {h : Heap (Val F)} (hd : Has h data s (fun i => .num (X i)))
    (hm : Has h mask s (fun i => .flag (M i))) (hs : ∀ d ∈ s, 0 ≤ d) (hne : s ≠ [])
    (j1 j2 j3 : Int → Val F) :
    ∃ h' r, flagMagnitude gt data mask j1 j2 j3 h = .ok (h', r) ∧
      Has h' r s (fun i => .flag (M i + if gt (X i) then magnitudeFlag else 0)) ∧ Ext h h' := by
  obtain ⟨h1, r1, a1, a2, a3⟩ := hd.scalar hs (Val.cmp gt) j1
  obtain ⟨h2, r2, b1, b2, b3⟩ := a2.scalar hs (Val.mulFlag magnitudeFlag) j2
  obtain ⟨h3, r3, c1, c2, c3⟩ := (hm.mono (a3.trans b3)).bin b2 hs hne Val.add j3
  refine ⟨h3, r3, ?_, c2.congr (fun i _ => ?_), (a3.trans b3).trans c3⟩
  · simp only [flagMagnitude, magnitudeFlags, a1, b1, c1, Outcome.bind_ok]
  · simp only [Val.cmp, Val.mulFlag, Val.add]
    cases gt (X i) <;> rfl

/-- **C61 (magnitude)**. On a channel whose mask does not have the magnitude flag yet,
`flag_magnitude` returns a channel whose mask has that flag set exactly on the samples above the
threshold and all other flags as before; the data and the old mask are untouched.

Missing from C61: samples that already carry the flag (`C61_magnitude_twice`). -/
theorem C61_magnitude_partial (gt : F → Bool) (data mask : Arr) (X : List Int → F)
    (M : List Int → UInt8) (h : Heap (Val F)) (j1 j2 j3 : Int → Val F)
    (hshape : data.shape = mask.shape) (hne : mask.shape ≠ []) (hwf : mask.WF)
    (hX : h.Contains data (fun i => .num (X i))) (hM : h.Contains mask (fun i => .flag (M i)))
    (hld : data.blk < h.next) (hlm : mask.blk < h.next)
    (hclear : ∀ i, ValidIdx mask.shape i → gt (X i) = true → M i &&& magnitudeFlag = 0) :
    ∃ h' r, flagMagnitude gt data mask j1 j2 j3 h = .ok (h', r) ∧ r.shape = mask.shape ∧
      h'.Contains r (fun i => .flag (if gt (X i) then M i ||| magnitudeFlag else M i)) ∧
      h.Frame h' := by
  obtain ⟨h', r, e1, e2, e3⟩ := magnitude_spec gt ⟨hshape, hld, hX⟩ ⟨rfl, hlm, hM⟩
    (shape_nonneg hwf) hne j1 j2 j3
  refine ⟨h', r, e1, e2.shape, fun i hi => ?_, e3.frame⟩
  rw [e2.contains i hi]
  have hi' : ValidIdx mask.shape i := by rw [← e2.shape]; exact hi
  cases hg : gt (X i) with
  | false => simp [hg]
  | true =>
    simp only [hg, if_true]
    rw [add_bit_or _ _ (by simp [magnitudeFlag]) (hclear i hi' hg)]

/-- **Violation of C61: flagging twice.** A sample above the threshold that already carries the
magnitude flag (and not the sigma-clip flag) loses it and gets the sigma-clip flag instead. -/
theorem C61_magnitude_twice (gt : F → Bool) (data mask : Arr) (X : List Int → F)
    (M : List Int → UInt8) (h : Heap (Val F)) (j1 j2 j3 : Int → Val F)
    (hshape : data.shape = mask.shape) (hne : mask.shape ≠ []) (hwf : mask.WF)
    (hX : h.Contains data (fun i => .num (X i))) (hM : h.Contains mask (fun i => .flag (M i)))
    (hld : data.blk < h.next) (hlm : mask.blk < h.next) (i : List Int)
    (hi : ValidIdx mask.shape i) (hgt : gt (X i) = true) (hset : M i &&& magnitudeFlag ≠ 0)
    (hns : M i &&& sigmaClipFlag = 0) :
    ∃ h' r b, flagMagnitude gt data mask j1 j2 j3 h = .ok (h', r) ∧
      h'.get r i = some (.flag b) ∧ b &&& magnitudeFlag = 0 ∧ b &&& sigmaClipFlag ≠ 0 := by
  obtain ⟨h', r, e1, e2, e3⟩ := magnitude_spec gt ⟨hshape, hld, hX⟩ ⟨rfl, hlm, hM⟩
    (shape_nonneg hwf) hne j1 j2 j3
  refine ⟨h', r, _, e1, e2.contains i (by rw [e2.shape]; exact hi), ?_⟩
  simp only [hgt, if_true, magnitudeFlag, sigmaClipFlag] at hset hns ⊢
  generalize M i = m at hset hns
  have key : ∀ x : Fin 256, (UInt8.ofNat x.val) &&& 16 ≠ 0 → (UInt8.ofNat x.val) &&& 32 = 0 →
      ((UInt8.ofNat x.val) + 16) &&& 16 = 0 ∧ ((UInt8.ofNat x.val) + 16) &&& 32 ≠ 0 := by
    decide +kernel
  have hm : m = UInt8.ofNat (⟨m.toNat, UInt8.toNat_lt m⟩ : Fin 256).val := by simp
  rw [hm] at hset hns ⊢
  exact key _ hset hns

/-! ## Spectral kurtosis -/

theorem fold_num (f : F → F → F) (X : List Int → F) (l : List (List Int)) (x : F) :
    l.foldl (fun acc j => Val.map2 f acc (.num (X j))) (.num x) =
      .num (l.foldl (fun acc j => f acc (X j)) x) := by
  induction l generalizing x with
  | nil => rfl
  | cons a l ih => simp only [List.foldl_cons, Val.map2]; exact ih _

theorem remaining_row (i c : Int) : remaining [0] [i, c] = [c] := by
  simp [remaining, List.zipIdx]

theorem goodAxes0 {a : Arr} (h : 1 ≤ a.dims.length) : GoodAxes a [0] := by
  refine ⟨by simp, fun d hd => ?_⟩
  simp at hd
  subst hd
  omega

/-- The column sums the estimator uses. -/
theorem Has.colSum {h : Heap (Val F)} {a : Arr} {t n : Int} {X : List Int → F}
    (x : Has h a [t, n] (fun i => .num (X i))) (ht : 0 ≤ t) (hn : 0 ≤ n) (o : SkOps F)
    (junk : Int → Val F) :
    ∃ h' r, Stat.sum (skStat o) a [0] junk h = .ok (h', r) ∧
      Has h' r [n] (fun i => .num ((order [t, n] [0] i).foldl (fun acc j => o.add acc (X j)) o.zero)) ∧
      Ext h h' := by
  obtain ⟨x1, x2, x3⟩ := x
  have hl : a.dims.length = 2 := by
    have := congrArg List.length x1
    simpa [Arr.shape] using this
  have hwf : a.WF := wf_of_shape (by rw [x1]; intro s hs; simp at hs; omega)
  have := (C53_sum (skStat o) a [0] junk h _ (goodAxes0 (by omega)) hwf x3 x2).1
  rw [x1, remaining_row] at this
  obtain ⟨h', r, e1, e2, e3⟩ := Has.of_returns this
  refine ⟨h', r, e1, e2.congr (fun i _ => ?_), e3⟩
  exact fold_num _ _ _ _

/-- The spectral kurtosis of one channel as the program computes it, from the samples of the channel
in the order `l`. -/
def skOf (o : SkOps F) (N M : Int) (d : F) (X : List Int → F) (l : List (List Int)) : F :=
  let s1 := l.foldl (fun acc j => o.add acc (X j)) o.zero
  let s2 := l.foldl (fun acc j => o.add acc (o.mul (X j) (X j))) o.zero
  o.mul (o.sub (o.mul (o.div s2 (o.mul s1 s1)) (o.ofInt M)) (o.ofInt 1))
    (o.div (o.add (o.mul (o.ofInt (M * N)) d) (o.ofInt 1)) (o.ofInt (M - 1)))

theorem sk_spec (o : SkOps F) (N : Int) (d : F) {data : Arr} {t n : Int} {X : List Int → F}
    {h : Heap (Val F)} (x : Has h data [t, n] (fun i => .num (X i))) (ht : 0 ≤ t) (hn : 0 ≤ n)
    (hov : ¬ (t * N < -2 ^ 31 ∨ 2 ^ 31 ≤ t * N)) (j : Nat → Int → Val F) :
    ∃ h' r, spectralKurtosis o N t d data j h = .ok (h', r) ∧
      Has h' r [n] (fun i => .num (skOf o N t d X (order [t, n] [0] i))) ∧ Ext h h' := by
  have hs2 : ∀ s ∈ [t, n], 0 ≤ s := by intro s hs; simp at hs; omega
  have hs1 : ∀ s ∈ [n], 0 ≤ s := by intro s hs; simp at hs; omega
  obtain ⟨hA, tA, a1, a2, a3⟩ := x.colSum ht hn o (j 0)
  obtain ⟨hB, s1, b1, b2, b3⟩ := a2.unary hs1 (Val.map1 (fun x => o.mul x x)) (j 1)
  obtain ⟨hC, u, c1, c2, c3⟩ := (x.mono (a3.trans b3)).unary hs2 (Val.map1 (fun x => o.mul x x)) (j 2)
  obtain ⟨hD, s2, d1, d2, d3⟩ := Has.colSum (X := fun i => o.mul (X i) (X i)) c2 ht hn o (j 3)
  obtain ⟨hE, q, e1, e2, e3⟩ := d2.bin (b2.mono (c3.trans d3)) hs1 (by simp) (Val.map2 o.div) (j 4)
  obtain ⟨hF, m, f1, f2, f3⟩ := e2.scalar hs1 (Val.map1 (fun x => o.mul x (o.ofInt t))) (j 5)
  obtain ⟨hG, m1, g1, g2, g3⟩ := f2.scalar hs1 (Val.map1 (fun x => o.sub x (o.ofInt 1))) (j 6)
  obtain ⟨hH, r, k1, k2, k3⟩ := g2.scalar hs1 (Val.map1 (fun x => o.mul x
    (o.div (o.add (o.mul (o.ofInt (t * N)) d) (o.ofInt 1)) (o.ofInt (t - 1))))) (j 7)
  refine ⟨hH, r, ?_, k2.congr (fun i _ => rfl), ?_⟩
  · simp only [spectralKurtosis, hov, if_false, a1, b1, c1, d1, e1, f1, g1, k1, Outcome.bind_ok]
  · exact ((((((a3.trans b3).trans c3).trans d3).trans e3).trans f3).trans g3).trans k3

/-- What `flag_spectral_kurtosis` adds, for every mask. -/
theorem flagSk_spec (o : SkOps F) (lt gt : F → Bool) (N : Int) (d : F) {data mask : Arr} {t n : Int}
    {X : List Int → F} {M : List Int → UInt8} {h : Heap (Val F)}
    (x : Has h data [t, n] (fun i => .num (X i))) (y : Has h mask [t, n] (fun i => .flag (M i)))
    (ht : 1 ≤ t) (hn : 1 ≤ n) (hov : ¬ (t * N < -2 ^ 31 ∨ 2 ^ 31 ≤ t * N)) (j : Nat → Int → Val F) :
    ∃ h' r, flagSk o lt gt N d data mask j h = .ok (h', r) ∧
      Has h' r [t, n] (fun i => .flag (M i +
        ((if lt (skOf o N t d X (order [t, n] [0] [i.getD 1 0])) then lowSkFlag else 0) +
         (if gt (skOf o N t d X (order [t, n] [0] [i.getD 1 0])) then highSkFlag else 0)))) ∧
      Ext h h' := by
  have hs1 : ∀ s ∈ [n], 0 ≤ s := by intro s hs; simp at hs; omega
  obtain ⟨hA, sk, a1, a2, a3⟩ := sk_spec o N d x (by omega) (by omega) hov j
  obtain ⟨hB, lo, b1, b2, b3⟩ := a2.scalar hs1 (Val.cmp lt) (j 8)
  obtain ⟨hC, lo2, c1, c2, c3⟩ := b2.scalar hs1 (Val.mulFlag lowSkFlag) (j 9)
  obtain ⟨hD, hi, d1, d2, d3⟩ := (a2.mono (b3.trans c3)).scalar hs1 (Val.cmp gt) (j 10)
  obtain ⟨hE, hi4, e1, e2, e3⟩ := d2.scalar hs1 (Val.mulFlag highSkFlag) (j 11)
  obtain ⟨hF, s, f1, f2, f3⟩ := (c2.mono (d3.trans e3)).bin e2 hs1 (by simp) Val.add (j 12)
  obtain ⟨r, r1, r2, r3⟩ := C51_unsqueeze s 0 (by omega)
  have hr : Has hF r [1, n] _ := ⟨by rw [r2, f2.shape]; rfl, by rw [r3.blk]; exact f2.lt,
    r3.contains f2.contains⟩
  have all := ((((a3.trans b3).trans c3).trans d3).trans e3).trans f3
  obtain ⟨hG, m, g1, g2, g3⟩ := (y.mono all).bin_row hr ht hn Val.add (j 13)
  refine ⟨hG, m, ?_, g2.congr (fun i _ => ?_), all.trans g3⟩
  · have r1' : unsqueeze s 0 = .ok r := r1
    simp only [flagSk, x.shape, List.getElem?_cons_zero, skFlags, a1, b1, c1, d1, e1, f1, r1', g1,
      Outcome.bind_ok, Outcome.pure_eq]
  · show Val.flag (M i +
      ((if lt (skOf o N t d X (order [t, n] [0] [i.getD 1 0])) then (1 : UInt8) else 0) * lowSkFlag +
       (if gt (skOf o N t d X (order [t, n] [0] [i.getD 1 0])) then (1 : UInt8) else 0) *
        highSkFlag)) = _
    generalize lt (skOf o N t d X (order [t, n] [0] [i.getD 1 0])) = p
    generalize gt (skOf o N t d X (order [t, n] [0] [i.getD 1 0])) = q
    cases p <;> cases q <;> rfl

/-- Flags that are not set yet are set by adding them. -/
theorem add_sk_or (m : UInt8) (a b : Bool) (h : m &&& (lowSkFlag ||| highSkFlag) = 0) :
    m + ((if a then lowSkFlag else 0) + (if b then highSkFlag else 0)) =
      m ||| (if a then lowSkFlag else 0) ||| (if b then highSkFlag else 0) := by
  have key : ∀ x : Fin 256, ∀ a b : Bool, (UInt8.ofNat x.val) &&& (lowSkFlag ||| highSkFlag) = 0 →
      (UInt8.ofNat x.val) + ((if a then lowSkFlag else 0) + (if b then highSkFlag else 0)) =
      (UInt8.ofNat x.val) ||| (if a then lowSkFlag else 0) ||| (if b then highSkFlag else 0) := by
    decide +kernel
  have hm : m = UInt8.ofNat (⟨m.toNat, UInt8.toNat_lt m⟩ : Fin 256).val := by simp
  rw [hm] at h ⊢
  exact key _ a b h

/-- **C61 (spectral kurtosis)**. On a channel of `t ≥ 1` time steps and `n ≥ 1` frequency channels
whose mask has neither kurtosis flag yet, `flag_spectral_kurtosis` sets the low (high) kurtosis flag
on all samples of exactly those frequency channels whose estimate, computed from all the channel's
samples, is below (above) the threshold, and keeps all other flags.

Missing from C61: samples that already carry one of the two flags (`C61_sk_twice`). -/
theorem C61_sk_partial (o : SkOps F) (lt gt : F → Bool) (N : Int) (d : F) (data mask : Arr)
    (t n : Int) (X : List Int → F) (M : List Int → UInt8) (h : Heap (Val F))
    (j : Nat → Int → Val F) (hd : data.shape = [t, n]) (hm : mask.shape = [t, n]) (ht : 1 ≤ t)
    (hn : 1 ≤ n) (hX : h.Contains data (fun i => .num (X i)))
    (hM : h.Contains mask (fun i => .flag (M i))) (hld : data.blk < h.next)
    (hlm : mask.blk < h.next) (hov : -2 ^ 31 ≤ t * N ∧ t * N < 2 ^ 31)
    (hclear : ∀ i, ValidIdx mask.shape i → M i &&& (lowSkFlag ||| highSkFlag) = 0) :
    ∃ col : Int → List (List Int),
      (∀ c, 0 ≤ c → c < n → (col c).Nodup ∧
        ∀ i, i ∈ col c ↔ ∃ k, 0 ≤ k ∧ k < t ∧ i = [k, c]) ∧
      ∃ h' r, flagSk o lt gt N d data mask j h = .ok (h', r) ∧ r.shape = mask.shape ∧
        (∀ k c, 0 ≤ k → k < t → 0 ≤ c → c < n →
          h'.get r [k, c] = some (.flag (M [k, c] |||
            (if lt (skOf o N t d X (col c)) then lowSkFlag else 0) |||
            (if gt (skOf o N t d X (col c)) then highSkFlag else 0)))) ∧
        h.Frame h' := by
  have hl : data.dims.length = 2 := by
    have := congrArg List.length hd
    simpa [Arr.shape] using this
  refine ⟨fun c => order [t, n] [0] [c], fun c h0 h1 => ?_, ?_⟩
  · have hE := order_enumerates (a := data) (axes := [0]) (o := [c]) (goodAxes0 (by omega)) (by
      rw [hd, remaining_row]
      exact .cons ⟨h0, h1⟩ .nil)
    rw [hd] at hE
    refine ⟨hE.1, fun i => ?_⟩
    rw [hE.2]
    constructor
    · rintro ⟨hv, hr⟩
      match i, hv with
      | [p, q], hv =>
        rw [remaining_row] at hr
        simp only [orUnit] at hr
        simp only [ValidIdx, List.forall₂_cons, List.Forall₂.nil, and_true] at hv
        have : q = c := by simpa using hr
        subst this
        exact ⟨p, hv.1.1, hv.1.2, rfl⟩
    · rintro ⟨k, k0, k1, rfl⟩
      exact ⟨.cons ⟨k0, k1⟩ (.cons ⟨h0, h1⟩ .nil), by rw [remaining_row]; rfl⟩
  · obtain ⟨h', r, e1, e2, e3⟩ := flagSk_spec o lt gt N d ⟨hd, hld, hX⟩ ⟨hm, hlm, hM⟩ ht hn
      (by omega) j
    refine ⟨h', r, e1, by rw [e2.shape, hm], fun k c k0 k1 c0 c1 => ?_, e3.frame⟩
    have hv : ValidIdx [t, n] [k, c] := .cons ⟨k0, k1⟩ (.cons ⟨c0, c1⟩ .nil)
    rw [e2.contains [k, c] (by rw [e2.shape]; exact hv)]
    simp only [List.getD_cons_succ, List.getD_cons_zero, Option.some.injEq, Val.flag.injEq]
    rw [add_sk_or _ _ _ (hclear _ (by rw [hm]; exact hv))]

/-- Exact arithmetic for the estimator. -/
def ratSk : SkOps ℚ := ⟨(· + ·), (· * ·), (· / ·), (· - ·), fun i => (i : ℚ), 0⟩

/-- In exact arithmetic the estimate of a channel is
`(M·N·d + 1)/(M - 1) · (M·Σx²/(Σx)² - 1)` over its samples, in whatever order. -/
theorem C61_sk_exact (N M : Int) (d : ℚ) (X : List Int → ℚ) (l : List (List Int)) :
    skOf ratSk N M d X l = ((M * N * d + 1) / (M - 1)) *
      (M * ((l.map (fun j => X j ^ 2)).sum / (l.map X).sum ^ 2) - 1) := by
  have e1 := foldl_add_sum X l 0
  have e2 := foldl_add_sum (fun j => X j * X j) l 0
  simp only [skOf, ratSk]
  rw [e1, e2]
  have : (fun j => X j * X j) = fun j => X j ^ 2 := by funext j; ring
  rw [this]
  push_cast
  ring

/-- **Violation of C61: flagging twice.** A sample of a channel with a high estimate that already
carries the high kurtosis flag loses it and gets the reserved flag 8. -/
theorem C61_sk_twice (o : SkOps F) (lt gt : F → Bool) (N : Int) (d : F) (data mask : Arr)
    (t n : Int) (X : List Int → F) (M : List Int → UInt8) (h : Heap (Val F))
    (j : Nat → Int → Val F) (hd : data.shape = [t, n]) (hm : mask.shape = [t, n]) (ht : 1 ≤ t)
    (hn : 1 ≤ n) (hX : h.Contains data (fun i => .num (X i)))
    (hM : h.Contains mask (fun i => .flag (M i))) (hld : data.blk < h.next)
    (hlm : mask.blk < h.next) (hov : -2 ^ 31 ≤ t * N ∧ t * N < 2 ^ 31) (k c : Int)
    (hk : 0 ≤ k ∧ k < t) (hc : 0 ≤ c ∧ c < n) (hset : M [k, c] = highSkFlag)
    (hlo : lt (skOf o N t d X (order [t, n] [0] [c])) = false)
    (hhi : gt (skOf o N t d X (order [t, n] [0] [c])) = true) :
    ∃ h' r, flagSk o lt gt N d data mask j h = .ok (h', r) ∧
      h'.get r [k, c] = some (.flag 8) := by
  obtain ⟨h', r, e1, e2, e3⟩ := flagSk_spec o lt gt N d ⟨hd, hld, hX⟩ ⟨hm, hlm, hM⟩ ht hn
    (by omega) j
  refine ⟨h', r, e1, ?_⟩
  have hv : ValidIdx [t, n] [k, c] := .cons hk (.cons hc .nil)
  rw [e2.contains [k, c] (by rw [e2.shape]; exact hv)]
  simp only [List.getD_cons_succ, List.getD_cons_zero, hset, hlo, hhi]
  rfl

/-- A 2×2 grid and its mask. -/
def grid : Heap (Val ℚ) :=
  ⟨fun b => if b = 0 then Buf.ofFn 4 (fun i => .num (if i = 0 then 9 else 1))
    else if b = 1 then Buf.ofFn 4 (fun i => .flag (if i = 3 then 1 else 0)) else fun _ => none, 2⟩

-- concrete cases: the sample 9 is flagged by magnitude; column 0 (9, 1) has a kurtosis of
-- 5·(2·82/100 - 1) = 3.2 and column 1 (1, 1) of 0
example : grid.Contains (dense 0 [2, 2]) (fun i => .num (if i = [0, 0] then 9 else 1)) ∧
    grid.Contains (dense 1 [2, 2]) (fun i => .flag (if i = [1, 1] then 1 else 0)) := by
  constructor <;>
  · intro idx hi
    have hi' : ValidIdx [2, 2] idx := hi
    match idx, hi' with
    | [a, b], hi' =>
      simp only [ValidIdx, List.forall₂_cons, List.Forall₂.nil, and_true] at hi'
      obtain ⟨⟨a0, a1⟩, b0, b1⟩ := hi'
      interval_cases a <;> interval_cases b <;> decide +kernel

example : (fun r => (resultAt r [0, 0], resultAt r [0, 1], resultAt r [1, 1]))
    (flagMagnitude (fun x => decide (x > 5)) (dense 0 [2, 2]) (dense 1 [2, 2]) (fun _ => .num 0)
      (fun _ => .num 0) (fun _ => .num 0) grid) =
    (some (.flag 16), some (.flag 0), some (.flag 1)) := by decide +kernel

example : (fun r => (resultAt r [0, 0], resultAt r [1, 0], resultAt r [0, 1], resultAt r [1, 1]))
    (flagSk ratSk (fun x => decide (x < 1)) (fun x => decide (x > 3)) 1 2 (dense 0 [2, 2])
      (dense 1 [2, 2]) (fun _ _ => .num 0) grid) =
    (some (.flag 4), some (.flag 4), some (.flag 2), some (.flag 3)) := by decide +kernel

end Bliss.Flag
