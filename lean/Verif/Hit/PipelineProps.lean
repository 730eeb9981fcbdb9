import Verif.Hit.Pipeline

/-!
# What the steps of `bliss_find_hits` guarantee (C117, C118)
-/

namespace Bliss.Hit

open Bliss.Drift Bliss.Comp Bliss.Float Bliss.Nd Bliss.Stat Bliss.Flag

variable {F D : Type}

/-! ## The search returns -/

/-- The range of drifts is one for which `integrate_drifts` is defined (C07). -/
structure Defined (ro : RateOptions) (T N : Nat) : Prop where
  steps : 2 ≤ T ∧ (T : Int) - 1 ≤ 2 ^ 24
  step : ro.step ≠ 0
  some : 0 < (ro.high - ro.low).tdiv ro.step
  range : ∀ i : Nat, (i : Int) < (ro.high - ro.low).tdiv ro.step →
    |ro.low + i * ro.step| < 2 ^ 22 ∧ 2 * |ro.low + i * ro.step| ≤ N

/-- Comparisons are those of numbers, and the threshold is at least the smallest normal `float`. -/
structure Sane [LT F] [Div F] [OfNat F 2] (fltMin thr : F) : Prop where
  trans : ∀ a b c : F, a < b → b < c → a < c
  irrefl : ∀ a : F, ¬ a < a
  half : ∀ v : F, thr < v → thr / 2 < v
  normal : ∀ v : F, thr < v → fltMin < v

section
variable [Zero F] [Add F] [Sub F] [Div F] [IntCast F] [LT F] [DecidableLT F] [OfNat F 2]

/-- The drift search returns on every spectrum, with either search method. -/
theorem driftSearch_returns (R24 : Rounding 24) (R53 : Rounding 53) (hz : Fl → Fl) (ar : Arith F Fl)
    (fltMin : F) (junk : Coord → Int) (cc : Channel Fl) (ro : RateOptions) (op : Options F)
    (T N : Nat) (X : Nat → Int → F) (Q : Nat → Int → UInt8) (p f : F) (hd : Defined ro T N)
    (hs : Sane fltMin op.thr) :
    ∃ hits, driftSearch R24 R53 hz ar fltMin junk cc (denseInput T N X Q) ro p f op = .ok hits := by
  obtain ⟨a, rates, off, h1, h2, h3⟩ := C07_defined_partial R24 R53 hz (denseInput_holds T N X Q)
    ⟨rfl, rfl⟩ (o := ro) hd.steps.1 hd.steps.2 hd.step hd.some hd.range
  obtain ⟨cs, hits, _, e2, _⟩ := C18_hit_search_partial ar fltMin junk cc
    (planeOf (denseInput T N X Q) a rates) p f op hs.trans hs.irrefl (by simp [planeOf]) hs.half
    hs.normal
  exact ⟨hits, by simp only [driftSearch, h1, Outcome.bind_ok]; exact e2⟩

/-- **C117 (returns).** As long as one sample carries no flag, the steps of `bliss_find_hits` return
a list of hits; nothing is undefined and nothing throws. If every sample carries a flag they throw. -/
theorem C117_returns (R24 : Rounding 24) (R53 : Rounding 53) (hz : Fl → Fl) (ar : Arith F Fl)
    (fltMin : F) (junk : Coord → Int) (cc : Channel Fl) (width : Int → Int) (so : SkOps F)
    (lt gt : F → Bool) (nsk : Int) (d : F) (o : StatOps F D) (ro : RateOptions) (op : Options F)
    (tiny : Fl → Bool) (zeroDrift : Bool) (j : Nat → Nat → Int → Val F) (h : Heap (Val F))
    (T N : Nat) (X : Nat → Int → F) (k : Int) (bd bm : Nat) (hr : FlagRange width nsk T N k)
    (hload : Loaded h T N X bd bm) (hd : Defined ro T N) (hs : Sane fltMin op.thr) :
    let run := searchFlagged R24 R53 hz ar fltMin junk cc width so lt gt nsk d o ro op tiny zeroDrift
      (dense bd [(T : Int), (N : Int)]) (dense bm [(T : Int), (N : Int)]) j h
    ((∃ hits, run = .ok hits) ↔ ∃ (t : Nat) (c : Int), t < T ∧ 0 ≤ c ∧ c < N ∧
      flagsOf so lt gt nsk d k T N X t c = 0) ∧
    ((¬ ∃ hits, run = .ok hits) → run = .throws .runtimeError) := by
  intro run
  obtain ⟨h1, h2⟩ := C117_search R24 R53 hz ar fltMin junk cc width so lt gt nsk d o ro op tiny
    zeroDrift j h T N X k bd bm hr hload
  have hmem : clean T N (flagsOf so lt gt nsk d k T N X) ≠ [] ↔ ∃ (t : Nat) (c : Int), t < T ∧
      0 ≤ c ∧ c < N ∧ flagsOf so lt gt nsk d k T N X t c = 0 := by
    rw [← List.length_pos_iff, List.length_pos_iff_exists_mem]
    simp only [clean, samples, List.mem_filter, List.mem_flatMap, List.mem_range, List.mem_map,
      decide_eq_true_eq]
    constructor
    · rintro ⟨i, ⟨t, ht, c, hc, rfl⟩, h0⟩
      exact ⟨t, c, ht, by omega, by omega, by simpa [onIdx] using h0⟩
    · rintro ⟨t, c, ht, hc0, hc, h0⟩
      exact ⟨[(t : Int), c], ⟨t, ht, c.toNat, by omega, by simp [hc0]⟩, by simpa [onIdx] using h0⟩
  by_cases he : clean T N (flagsOf so lt gt nsk d k T N X) = []
  · have ht : run = .throws .runtimeError := h1 he
    refine ⟨⟨?_, fun hx => absurd he (hmem.mpr hx)⟩, fun _ => ht⟩
    rintro ⟨hits, e⟩
    rw [ht] at e
    cases e
  · obtain ⟨hits, e⟩ := driftSearch_returns R24 R53 hz ar fltMin junk cc ro op T N X
      (flagsOf so lt gt nsk d k T N X) (powerOf o X (clean T N (flagsOf so lt gt nsk d k T N X)))
      (floorOf o X (clean T N (flagsOf so lt gt nsk d k T N X))) hd hs
    have hrun : run = .ok _ := h2 hits he e
    exact ⟨⟨fun _ => hmem.mp he, fun _ => ⟨_, hrun⟩⟩, fun hno => absurd ⟨_, hrun⟩ hno⟩

/-! ## No reported hit comes from a flagged line -/

omit [Zero F] [Add F] [Sub F] [Div F] [IntCast F] [LT F] [DecidableLT F] [OfNat F 2] in
theorem toHits_sorted {D' : Type} [Sub F] [Div F] {ar : Arith F D'} {junk : Coord → Int}
    {cc : Channel D'} {p : Plane F D'} {floor : F} {cs : List (Protohit F)} {hs : List (Hit F D')}
    (e : toHits ar junk cc p floor cs = .ok hs) : ∀ h ∈ hs, SortedKeys h.rfi := by
  induction cs generalizing hs with
  | nil => cases e; simp
  | cons c cs ih =>
    unfold toHits at e
    cases h1 : toHit ar junk cc p floor c with
    | throws x => rw [h1] at e; cases e
    | ub => rw [h1] at e; cases e
    | ok a =>
      rw [h1] at e
      cases h2 : toHits ar junk cc p floor cs with
      | throws x => rw [h2] at e; cases e
      | ub => rw [h2] at e; cases e
      | ok l =>
        rw [h2] at e
        simp only [Outcome.bind_ok, Outcome.pure_eq, Outcome.ok.injEq] at e
        subst e
        intro h hh
        rcases List.mem_cons.mp hh with rfl | hh
        · unfold toHit at h1
          split at h1
          · cases h1
            cases c.rfi with
            | none => exact List.Pairwise.nil
            | some x =>
              obtain ⟨l, hi, ro⟩ := x
              simp [SortedKeys, countsOf, kRolloff, kLowSk, kHighSk]
          · cases h1
        · exact ih h2 h hh

theorem driftSearch_sorted {R24 : Rounding 24} {R53 : Rounding 53} {hz : Fl → Fl} {ar : Arith F Fl}
    {fltMin : F} {junk : Coord → Int} {cc : Channel Fl} {inp : Input F} {ro : RateOptions} {p f : F}
    {o : Options F} {hits : List (Hit F Fl)}
    (e : driftSearch R24 R53 hz ar fltMin junk cc inp ro p f o = .ok hits) :
    ∀ h ∈ hits, SortedKeys h.rfi := by
  unfold driftSearch at e
  cases h1 : integrateDrifts R24 R53 hz inp ro with
  | throws x => rw [h1] at e; cases e
  | ub => rw [h1] at e; cases e
  | ok r =>
    rw [h1] at e
    simp only [Outcome.bind_ok, hitSearch] at e
    cases h2 : protohitSearch ar fltMin (planeOf inp r.1 r.2) p f o with
    | throws x => rw [h2] at e; cases e
    | ub => rw [h2] at e; cases e
    | ok cs =>
      rw [h2] at e
      exact toHits_sorted e

theorem pathFlags_zero {mask : Nat → Int → UInt8} {flag : UInt8} {N T d : Nat} {up : Bool}
    {span : Int} {off : Nat → Int} {c : Int} (hlen : T * d < 256)
    (h : pathFlags mask flag (path N T up span d off c) % 256 = 0) :
    ∀ s ∈ path N T up span d off c, mask s.1 s.2 &&& flag = 0 := by
  have hl : pathFlags mask flag (path N T up span d off c) < 256 := by
    refine lt_of_le_of_lt (List.countP_le_length) (lt_of_le_of_lt ?_ hlen)
    unfold path
    rw [List.length_flatMap]
    refine le_trans (List.sum_le_card_nsmul _ d ?_) (by simp)
    intro x hx
    simp only [List.mem_map] at hx
    obtain ⟨t, _, rfl⟩ := hx
    exact le_trans (List.length_filterMap_le _ _) (by simp)
  rw [Nat.mod_eq_of_lt hl] at h
  unfold pathFlags at h
  rw [List.countP_eq_zero] at h
  intro s hs
  simpa using h s hs

theorem flag_bits (e a b : Bool) :
    (((if e then (1 : UInt8) else 0) ||| (if a then 2 else 0) ||| if b then 4 else 0) &&& 1 = 0 ↔
      e = false) ∧
    (((if e then (1 : UInt8) else 0) ||| (if a then 2 else 0) ||| if b then 4 else 0) &&& 2 = 0 ↔
      a = false) := by
  cases e <;> cases a <;> cases b <;> decide

/-- **C117 (what is reported).** Every hit that the steps of `bliss_find_hits` report stems from a
straight line through the spectrum whose mean exceeds the mean of the unflagged samples by more than
the threshold, in units of their standard deviation divided by the square root of the number of
samples on the line. If the line has fewer than 256 samples, it touches none of the flagged channels
at the band edges and none of low spectral kurtosis.

Missing: lines of 256 samples and more, where the counter of flags wraps around (C04); the line is
that of the first cell of the hit's cluster, not that of its peak (C16). -/
theorem C117_reported_partial (R24 : Rounding 24) (R53 : Rounding 53) (hz : Fl → Fl) (ar : Arith F Fl)
    (fltMin : F) (junk : Coord → Int) (cc : Channel Fl) (width : Int → Int) (so : SkOps F)
    (lt gt : F → Bool) (nsk : Int) (d : F) (o : StatOps F D) (ro : RateOptions) (op : Options F)
    (tiny : Fl → Bool) (zeroDrift : Bool) (j : Nat → Nat → Int → Val F) (h : Heap (Val F))
    (T N : Nat) (X : Nat → Int → F) (k : Int) (bd bm : Nat) (hr : FlagRange width nsk T N k)
    (hload : Loaded h T N X bd bm) (hd : Defined ro T N) (hs : Sane fltMin op.thr)
    (hm : op.method = .connectedComponents) (hits : List (Hit F Fl))
    (hrun : searchFlagged R24 R53 hz ar fltMin junk cc width so lt gt nsk d o ro op tiny zeroDrift
      (dense bd [(T : Int), (N : Int)]) (dense bm [(T : Int), (N : Int)]) j h = .ok hits) :
    let l := clean T N (flagsOf so lt gt nsk d k T N X)
    ∃ (desmear : Nat → Int) (off : Nat → Nat → Int),
      ∀ hit ∈ hits, ∃ (i : Nat) (c : Int), (i : Int) < (ro.high - ro.low).tdiv ro.step ∧
        0 ≤ c ∧ c < N ∧ 1 ≤ desmear i ∧
        StraightPath (ro.low + i * ro.step) T (2 ^ (-23 : ℤ) + 2 ^ (-51 : ℤ)) (off i) ∧
        let line := path N T (decide (0 ≤ ro.low + i * ro.step)) (ro.low + i * ro.step)
          (desmear i).toNat (off i) c
        op.thr < (pathSum X (desmear i) line / ((T : Int) : F) - floorOf o X l) /
          driftNoise ar (powerOf o X l) (T * desmear i) ∧
        (T * (desmear i).toNat < 256 → ∀ s ∈ line, k ≤ s.2 ∧ s.2 < (N : Int) - (k + 1) ∧
          lt (skOf so nsk T d (onIdx X) (column T s.2)) = false) := by
  intro l
  obtain ⟨h1, h2⟩ := C117_search R24 R53 hz ar fltMin junk cc width so lt gt nsk d o ro op tiny
    zeroDrift j h T N X k bd bm hr hload
  have hne : l ≠ [] := by
    intro e
    have := h1 e
    rw [hrun] at this
    cases this
  obtain ⟨hs0, desmear, off, e1, e2, e3⟩ := C87_hit_rfi_counts_partial R24 R53 hz ar fltMin junk cc
    (denseInput_holds T N X (flagsOf so lt gt nsk d k T N X)) ⟨rfl, rfl⟩ (ro := ro) hd.steps.1
    hd.steps.2 hd.step hd.some hd.range (powerOf o X l) (floorOf o X l) op hm hs.trans hs.irrefl
    hs.half hs.normal
  have hrun' := h2 hs0 hne e1
  rw [hrun] at hrun'
  obtain rfl := Outcome.ok.inj hrun'
  refine ⟨desmear, off, fun hit hh => ?_⟩
  have hsort := driftSearch_sorted e1
  rw [filterHits_eq tiny zeroDrift hs0 hsort] at hh
  obtain ⟨hit0, hh0, rfl⟩ := List.mem_map.mp hh
  obtain ⟨hin, hacc⟩ := List.mem_filter.mp hh0
  have hacc : Acceptable tiny zeroDrift hit0 := by simpa using hacc
  obtain ⟨i, c, i1, c1, c2, hline⟩ := e3 hit0 hin
  obtain ⟨g1, g2⟩ := e2 i i1
  obtain ⟨f1, f2, -, f4⟩ := hline
  refine ⟨i, c, i1, c1, c2, g2, g1, f1, fun hlen s hsm => ?_⟩
  have z1 : count hit0.rfi kRolloff = _ := congrArg (fun x => Option.getD x 0) f4
  have z2 : count hit0.rfi kLowSk = _ := congrArg (fun x => Option.getD x 0) f2
  rw [hacc.1] at z1
  rw [hacc.2.1] at z2
  have b1 := pathFlags_zero hlen z1.symm s hsm
  have b2 := pathFlags_zero hlen z2.symm s hsm
  have hb := flag_bits (decide (s.2 < k ∨ (N : Int) - (k + 1) ≤ s.2))
    (lt (skOf so nsk T d (onIdx X) (column T s.2))) (gt (skOf so nsk T d (onIdx X) (column T s.2)))
  simp only [decide_eq_true_eq, decide_eq_false_iff_not] at hb
  have q1 := hb.1.mp b1
  exact ⟨by omega, by omega, hb.2.mp b2⟩

end

/-! ## Exact arithmetic -/

/-- Exact arithmetic. -/
noncomputable def realSk : SkOps ℝ := ⟨(· + ·), (· * ·), (· / ·), (· - ·), fun i => (i : ℝ), 0⟩

theorem foldl_real (f : List Int → ℝ) (l : List (List Int)) (a : ℝ) :
    l.foldl (fun acc j => acc + f j) a = a + (l.map f).sum := by
  induction l generalizing a with
  | nil => simp
  | cons b l ih => simp only [List.foldl_cons, ih, List.map_cons, List.sum_cons]; ring

theorem column_sum (T : Nat) (c : Int) (f : List Int → ℝ) :
    ((column T c).map f).sum = ∑ t ∈ Finset.range T, f [(t : Int), c] := by
  unfold column
  induction T with
  | zero => simp
  | succ T ih =>
    rw [List.range_succ, Finset.sum_range_succ, ← ih]
    simp

/-- **C117 (kurtosis).** In exact arithmetic the number that decides the flags of channel `c` is the
estimator of spectral kurtosis of its `T` samples. -/
theorem C117_kurtosis (nsk : Int) (T : Nat) (d : ℝ) (X : Nat → Int → ℝ) (c : Int) :
    skOf realSk nsk T d (onIdx X) (column T c) =
      ((T * nsk * d + 1) / (T - 1)) *
        (T * ((∑ t ∈ Finset.range T, X t c ^ 2) / (∑ t ∈ Finset.range T, X t c) ^ 2) - 1) := by
  have e1 := foldl_real (onIdx X) (column T c) 0
  have e2 := foldl_real (fun j => onIdx X j * onIdx X j) (column T c) 0
  rw [column_sum] at e1 e2
  simp only [skOf, realSk]
  rw [e1, e2]
  simp only [onIdx, List.getD_cons_zero, List.getD_cons_succ, Int.toNat_natCast, ← pow_two]
  push_cast
  ring

theorem mdev_real (X : List Int → ℝ) (l : List (List Int)) (a b : ℝ) (n : Int) :
    l.foldl (fun acc j => mdevStep realOps acc (X j)) (a, b, n) =
      (a + (l.map X).sum, b + (l.map fun j => X j ^ 2).sum, n + l.length) := by
  induction l generalizing a b n with
  | nil => simp
  | cons x l ih =>
    simp only [List.foldl_cons, mdevStep, realOps, id] at ih ⊢
    rw [ih]
    simp only [List.map_cons, List.sum_cons, List.length_cons, Prod.mk.injEq]
    refine ⟨by ring, by ring, by push_cast; ring⟩

/-- **C117 (noise).** In exact arithmetic the noise floor and the noise power that the search is given
are the mean and the standard deviation of the samples without a flag. -/
theorem C117_noise (X : Nat → Int → ℝ) (l : List (List Int)) (hl : l ≠ []) :
    let mean := (l.map (onIdx X)).sum / l.length
    floorOf realOps X l = mean ∧
      powerOf realOps X l = √((l.map fun i => (onIdx X i - mean) ^ 2).sum / l.length) := by
  intro mean
  have hn : (l.length : ℝ) ≠ 0 := by
    simpa using hl
  refine ⟨?_, ?_⟩
  · have := foldl_real (onIdx X) l 0
    simp only [floorOf, realOps, id]
    rw [this]
    simp [mean]
  · unfold powerOf
    have := mdev_real (onIdx X) l 0 0 0
    rw [show (realOps.zero, realOps.zero, (0 : Int)) = ((0 : ℝ), (0 : ℝ), (0 : Int)) from rfl, this]
    simp only [mdevFinish, realOps, id, zero_add]
    congr 1
    have hs : ∀ (m : ℝ) (l : List (List Int)), (l.map fun i => (onIdx X i - m) ^ 2).sum =
        (l.map fun i => onIdx X i ^ 2).sum - 2 * m * (l.map (onIdx X)).sum + m ^ 2 * l.length := by
      intro m l
      induction l with
      | nil => simp
      | cons x l ih =>
        simp only [List.map_cons, List.sum_cons, ih, List.length_cons]
        push_cast
        ring
    rw [hs mean l]
    have hm : (l.map (onIdx X)).sum = mean * l.length := by simp only [mean]; field_simp
    rw [hm]
    push_cast
    field_simp
    ring

/-! ## The unit of the data -/

/-- The arithmetic of the kurtosis estimate respects a change of unit; `gQ` is the change of unit of
squares. -/
structure GainSk (so : SkOps F) (g gQ : F → F) : Prop where
  zero : g so.zero = so.zero
  zeroQ : gQ so.zero = so.zero
  add : ∀ a b, so.add (g a) (g b) = g (so.add a b)
  addQ : ∀ a b, so.add (gQ a) (gQ b) = gQ (so.add a b)
  mul : ∀ a b, so.mul (g a) (g b) = gQ (so.mul a b)
  ratio : ∀ a b, so.div (gQ a) (gQ b) = so.div a b

/-- The arithmetic of the noise estimate respects a change of unit; `gD` and `gQ` are the changes of
unit of doubles and of their squares. -/
structure GainStat (o : StatOps F D) (g : F → F) (gD gQ : D → D) : Prop where
  toD : ∀ x, o.toD (g x) = gD (o.toD x)
  toV : ∀ x, o.toV (gD x) = g (o.toV x)
  zero : gD o.zero = o.zero
  zeroQ : gQ o.zero = o.zero
  add : ∀ a b, o.add (gD a) (gD b) = gD (o.add a b)
  addQ : ∀ a b, o.add (gQ a) (gQ b) = gQ (o.add a b)
  sub : ∀ a b, o.sub (gQ a) (gQ b) = gQ (o.sub a b)
  mul : ∀ a b, o.mul (gD a) (gD b) = gQ (o.mul a b)
  div : ∀ a n, o.div (gD a) (o.ofInt n) = gD (o.div a (o.ofInt n))
  divQ : ∀ a n, o.div (gQ a) (o.ofInt n) = gQ (o.div a (o.ofInt n))
  sqrt : ∀ a, o.sqrt (gQ a) = gD (o.sqrt a)

theorem foldl_gain {α β : Type} (φ : α → α) {f f' : α → β → α} (h : ∀ a b, f' (φ a) b = φ (f a b))
    (l : List β) (a : α) : l.foldl f' (φ a) = φ (l.foldl f a) := by
  induction l generalizing a with
  | nil => rfl
  | cons b l ih => rw [List.foldl_cons, List.foldl_cons, h, ih]

theorem skOf_gain {so : SkOps F} {g gQ : F → F} (hg : GainSk so g gQ) (nsk M : Int) (d : F)
    (X : List Int → F) (l : List (List Int)) :
    skOf so nsk M d (fun i => g (X i)) l = skOf so nsk M d X l := by
  have e1 : l.foldl (fun acc j => so.add acc (g (X j))) so.zero =
      g (l.foldl (fun acc j => so.add acc (X j)) so.zero) := by
    conv_lhs => rw [← hg.zero]
    exact foldl_gain g (fun a b => hg.add _ _) l _
  have e2 : l.foldl (fun acc j => so.add acc (so.mul (g (X j)) (g (X j)))) so.zero =
      gQ (l.foldl (fun acc j => so.add acc (so.mul (X j) (X j))) so.zero) := by
    conv_lhs => rw [← hg.zeroQ]
    exact foldl_gain gQ (fun a b => by rw [hg.mul, hg.addQ]) l _
  simp only [skOf, e1, e2]
  rw [hg.mul, hg.ratio]

theorem flagsOf_gain {so : SkOps F} {g gQ : F → F} (hg : GainSk so g gQ) (lt gt : F → Bool)
    (nsk : Int) (d : F) (k : Int) (T N : Nat) (X : Nat → Int → F) :
    flagsOf so lt gt nsk d k T N (fun t c => g (X t c)) = flagsOf so lt gt nsk d k T N X := by
  funext t c
  have : (onIdx fun t c => g (X t c)) = fun i => g (onIdx X i) := rfl
  simp only [flagsOf, this, skOf_gain hg]

theorem floorOf_gain {o : StatOps F D} {g : F → F} {gD gQ : D → D} (hg : GainStat o g gD gQ)
    (X : Nat → Int → F) (l : List (List Int)) :
    floorOf o (fun t c => g (X t c)) l = g (floorOf o X l) := by
  have e1 : l.foldl (fun acc j => o.add acc (o.toD (g (onIdx X j)))) o.zero =
      gD (l.foldl (fun acc j => o.add acc (o.toD (onIdx X j))) o.zero) := by
    conv_lhs => rw [← hg.zero]
    exact foldl_gain gD (fun a b => by rw [hg.toD, hg.add]) l _
  unfold floorOf
  rw [← hg.toV, ← hg.div, ← e1]
  rfl

theorem powerOf_gain {o : StatOps F D} {g : F → F} {gD gQ : D → D} (hg : GainStat o g gD gQ)
    (X : Nat → Int → F) (l : List (List Int)) :
    powerOf o (fun t c => g (X t c)) l = g (powerOf o X l) := by
  have e1 : l.foldl (fun acc j => mdevStep o acc (g (onIdx X j))) (o.zero, o.zero, 0) =
      (fun p : D × D × Int => (gD p.1, gQ p.2.1, p.2.2))
        (l.foldl (fun acc j => mdevStep o acc (onIdx X j)) (o.zero, o.zero, 0)) := by
    have e := foldl_gain (fun p : D × D × Int => (gD p.1, gQ p.2.1, p.2.2))
      (f := fun acc j => mdevStep o acc (onIdx X j))
      (f' := fun acc j => mdevStep o acc (g (onIdx X j)))
      (fun a b => by simp only [mdevStep, hg.toD, hg.add, hg.mul, hg.addQ]) l (o.zero, o.zero, 0)
    simp only [hg.zero, hg.zeroQ] at e
    exact e
  have e2 : powerOf o (fun t c => g (X t c)) l =
      mdevFinish o (l.foldl (fun acc j => mdevStep o acc (g (onIdx X j))) (o.zero, o.zero, 0)) := rfl
  rw [e2, e1]
  simp only [powerOf, mdevFinish, hg.div, hg.divQ, hg.mul, hg.sub, hg.sqrt, hg.toV]

theorem filterHits_inUnit (gD : Fl → Fl) (tiny : Fl → Bool) (z : Bool) (l : List (Hit F Fl)) :
    filterHits tiny z (l.map (Hit.inUnit gD)) = (filterHits tiny z l).map (Hit.inUnit gD) := by
  induction l with
  | nil => rfl
  | cons h l ih =>
    have hb : ∀ (h : Hit F Fl) (l : List (Hit F Fl)), filterHits tiny z (h :: l) =
        cond (decide ((mapAt kRolloff h.rfi).1 > 0) ||
            decide ((mapAt kLowSk (mapAt kRolloff h.rfi).2).1 > 0) || z && tiny h.driftRate)
          (filterHits tiny z l)
          ({ h with rfi := (mapAt kLowSk (mapAt kRolloff h.rfi).2).2 } :: filterHits tiny z l) := by
      intro h l
      rw [Bool.cond_eq_ite]
      rfl
    rw [List.map_cons, hb, hb, ih]
    show cond (decide ((mapAt kRolloff h.rfi).1 > 0) ||
      decide ((mapAt kLowSk (mapAt kRolloff h.rfi).2).1 > 0) || z && tiny h.driftRate) _ _ = _
    cases (decide ((mapAt kRolloff h.rfi).1 > 0) ||
      decide ((mapAt kLowSk (mapAt kRolloff h.rfi).2).1 > 0) || z && tiny h.driftRate) <;> rfl

section
variable [Zero F] [Add F] [Sub F] [Div F] [IntCast F] [LT F] [DecidableLT F] [OfNat F 2]

/-- **C118.** The steps of `bliss_find_hits` do not depend on the unit of the data: with every sample
in the file multiplied by a positive constant the same samples are flagged and the same hits are
reported, only their powers are multiplied by the constant. This holds for the whole program, which
estimates the noise itself; the two runs may differ in what fresh memory holds. -/
theorem C118_unit_of_file (R24 : Rounding 24) (R53 : Rounding 53) (hz : Fl → Fl) (ar : Arith F Fl)
    (fltMin : F) (junk : Coord → Int) (cc : Channel Fl) (width : Int → Int) (so : SkOps F)
    (lt gt : F → Bool) (nsk : Int) (d : F) (o : StatOps F D) (ro : RateOptions) (op : Options F)
    (tiny : Fl → Bool) (zeroDrift : Bool) (T N : Nat) (X : Nat → Int → F) (k : Int)
    (g gS : F → F) (gD gQ : D → D) (gF : Fl → Fl) (hg : Gain g) (hF : GainD ar g gF)
    (hS : GainSk so g gS) (hO : GainStat o g gD gQ) (hr : FlagRange width nsk T N k)
    (hd : Defined ro T N) (hs : Sane fltMin op.thr)
    (j : Nat → Nat → Int → Val F) (h : Heap (Val F)) (bd bm : Nat) (hload : Loaded h T N X bd bm)
    (j' : Nat → Nat → Int → Val F) (h' : Heap (Val F)) (bd' bm' : Nat)
    (hload' : Loaded h' T N (fun t c => g (X t c)) bd' bm') :
    searchFlagged R24 R53 hz ar fltMin junk cc width so lt gt nsk d o ro op tiny zeroDrift
        (dense bd' [(T : Int), (N : Int)]) (dense bm' [(T : Int), (N : Int)]) j' h' =
      List.map (Hit.inUnit gF) <$>
        searchFlagged R24 R53 hz ar fltMin junk cc width so lt gt nsk d o ro op tiny zeroDrift
          (dense bd [(T : Int), (N : Int)]) (dense bm [(T : Int), (N : Int)]) j h := by
  obtain ⟨a1, a2⟩ := C117_search R24 R53 hz ar fltMin junk cc width so lt gt nsk d o ro op tiny
    zeroDrift j h T N X k bd bm hr hload
  obtain ⟨b1, b2⟩ := C117_search R24 R53 hz ar fltMin junk cc width so lt gt nsk d o ro op tiny
    zeroDrift j' h' T N _ k bd' bm' hr hload'
  simp only [flagsOf_gain hS, floorOf_gain hO, powerOf_gain hO] at b1 b2
  by_cases he : clean T N (flagsOf so lt gt nsk d k T N X) = []
  · rw [a1 he, b1 he]; rfl
  · obtain ⟨hits, e⟩ := driftSearch_returns R24 R53 hz ar fltMin junk cc ro op T N X
      (flagsOf so lt gt nsk d k T N X) (powerOf o X (clean T N (flagsOf so lt gt nsk d k T N X)))
      (floorOf o X (clean T N (flagsOf so lt gt nsk d k T N X))) hd hs
    have hin : denseInput T N (fun t c => g (X t c)) (flagsOf so lt gt nsk d k T N X) =
        inUnit g (denseInput T N X (flagsOf so lt gt nsk d k T N X)) := by
      simp only [denseInput, inUnit, Input.mk.injEq, and_true]
      funext i
      simp only [Buf.ofFn]
      split <;> rfl
    have e' := C116_unit_of_data R24 R53 hz ar fltMin junk cc
      (denseInput T N X (flagsOf so lt gt nsk d k T N X)) ro
      (powerOf o X (clean T N (flagsOf so lt gt nsk d k T N X)))
      (floorOf o X (clean T N (flagsOf so lt gt nsk d k T N X))) op g gF hg hF
    rw [e, ← hin] at e'
    rw [a2 hits he e, b2 _ he e', filterHits_inUnit]
    rfl

end

/-! ## Floating point -/

/-- The kurtosis estimate in `float`, rounding to nearest even. -/
def binSk : SkOps (Bin 24) where
  add a b := ⟨rne 24 (a.q + b.q)⟩
  mul a b := ⟨rne 24 (a.q * b.q)⟩
  div a b := ⟨rne 24 (a.q / b.q)⟩
  sub a b := ⟨rne 24 (a.q - b.q)⟩
  ofInt n := ⟨rne 24 n⟩
  zero := ⟨0⟩

/-- The noise estimate: `double` sums of `float` samples. -/
def binStat (sqrt : ℚ → ℚ) : StatOps (Bin 24) ℚ where
  toD x := x.q
  toV x := ⟨rne 24 x⟩
  zero := 0
  add a b := rne 53 (a + b)
  sub a b := rne 53 (a - b)
  mul a b := rne 53 (a * b)
  div a b := rne 53 (a / b)
  ofInt n := rne 53 n
  sqrt := sqrt
  clip x := Max.max 0 x
  zeroV := ⟨0⟩
  addV a b := ⟨rne 24 (a.q + b.q)⟩
  gtV a b := decide (b.q < a.q)
  lowest := ⟨-(2 ^ 128 - 2 ^ 104)⟩

theorem binSk_gain (k : ℤ) : GainSk binSk (Bin.scale k) (Bin.scale (k + k)) where
  zero := Bin.ext (mul_zero _)
  zeroQ := Bin.ext (mul_zero _)
  add := fun a b => Bin.ext (by
    show rne 24 (2 ^ k * a.q + 2 ^ k * b.q) = 2 ^ k * rne 24 (a.q + b.q)
    rw [← mul_add, rne_scale])
  addQ := fun a b => Bin.ext (by
    show rne 24 (2 ^ (k + k) * a.q + 2 ^ (k + k) * b.q) = 2 ^ (k + k) * rne 24 (a.q + b.q)
    rw [← mul_add, rne_scale])
  mul := fun a b => Bin.ext (by
    show rne 24 (2 ^ k * a.q * (2 ^ k * b.q)) = 2 ^ (k + k) * rne 24 (a.q * b.q)
    rw [← rne_scale, zpow_add₀ (by norm_num)]
    congr 1
    ring)
  ratio := fun a b => Bin.ext (by
    show rne 24 (2 ^ (k + k) * a.q / (2 ^ (k + k) * b.q)) = rne 24 (a.q / b.q)
    rw [mul_div_mul_left _ _ (zpow_ne_zero _ (by norm_num))])

theorem binStat_gain (sqrt : ℚ → ℚ) (k : ℤ) (hs : ∀ x, sqrt (2 ^ (k + k) * x) = 2 ^ k * sqrt x) :
    GainStat (binStat sqrt) (Bin.scale k) (fun x => 2 ^ k * x) (fun x => 2 ^ (k + k) * x) where
  toD := fun _ => rfl
  toV := fun x => Bin.ext (rne_scale 24 k x)
  zero := mul_zero _
  zeroQ := mul_zero _
  add := fun a b => by
    show rne 53 (2 ^ k * a + 2 ^ k * b) = 2 ^ k * rne 53 (a + b)
    rw [← mul_add, rne_scale]
  addQ := fun a b => by
    show rne 53 (2 ^ (k + k) * a + 2 ^ (k + k) * b) = 2 ^ (k + k) * rne 53 (a + b)
    rw [← mul_add, rne_scale]
  sub := fun a b => by
    show rne 53 (2 ^ (k + k) * a - 2 ^ (k + k) * b) = 2 ^ (k + k) * rne 53 (a - b)
    rw [← mul_sub, rne_scale]
  mul := fun a b => by
    show rne 53 (2 ^ k * a * (2 ^ k * b)) = 2 ^ (k + k) * rne 53 (a * b)
    rw [← rne_scale, zpow_add₀ (by norm_num)]
    congr 1
    ring
  div := fun a n => by
    show rne 53 (2 ^ k * a / rne 53 n) = 2 ^ k * rne 53 (a / rne 53 n)
    rw [mul_div_assoc, rne_scale]
  divQ := fun a n => by
    show rne 53 (2 ^ (k + k) * a / rne 53 n) = 2 ^ (k + k) * rne 53 (a / rne 53 n)
    rw [mul_div_assoc, rne_scale]
  sqrt := hs

/-- A square root of 60 significant bits, rounded to nearest even. -/
def binSqrt (x : ℚ) : ℚ :=
  let s := 60 - expo x / 2
  rne 53 (2 ^ (-s) * (Nat.sqrt ⌊2 ^ (s + s) * x⌋.toNat : ℚ))

theorem binSqrt_scale (k : ℤ) (x : ℚ) : binSqrt (2 ^ (k + k) * x) = 2 ^ k * binSqrt x := by
  by_cases hx : x = 0
  · subst hx; simp [binSqrt, rne]
  unfold binSqrt
  simp only
  rw [expo_scale _ _ hx, ← rne_scale, show (expo x + (k + k)) / 2 = expo x / 2 + k by omega]
  congr 1
  rw [← mul_assoc, ← mul_assoc, ← zpow_add₀ (by norm_num), ← zpow_add₀ (by norm_num)]
  congr 3
  · ring
  · congr 2
    congr 1
    congr 1
    ring

/-- **C118 (floating point).** With every sample of the file multiplied by `2 ^ m` the program, in
`float` and `double` arithmetic rounding to nearest even, reports the same hits bit for bit, with the
powers multiplied by `2 ^ m`, or throws in either case. `sqrtN` is the square root of the noise
estimate, of which only `sqrtN (4^m x) = 2^m sqrtN x` is used. -/
theorem C118_power_of_two (hz : Fl → Fl) (sqrt sqrtN : ℚ → ℚ) (m : ℤ)
    (hq : ∀ x, sqrtN (2 ^ (m + m) * x) = 2 ^ m * sqrtN x)
    (fltMin : Bin 24) (junk : Coord → Int) (cc : Channel Fl) (width : Int → Int)
    (lt gt : Bin 24 → Bool) (nsk : Int) (d : Bin 24) (ro : RateOptions) (op : Options (Bin 24))
    (tiny : Fl → Bool) (zeroDrift : Bool) (T N : Nat) (X : Nat → Int → Bin 24) (k : Int)
    (hr : FlagRange width nsk T N k) (hd : Defined ro T N) (hthr : 0 ≤ op.thr.q)
    (hmin : fltMin.q ≤ op.thr.q)
    (j : Nat → Nat → Int → Val (Bin 24)) (h : Heap (Val (Bin 24))) (bd bm : Nat)
    (hload : Loaded h T N X bd bm)
    (j' : Nat → Nat → Int → Val (Bin 24)) (h' : Heap (Val (Bin 24))) (bd' bm' : Nat)
    (hload' : Loaded h' T N (fun t c => Bin.scale m (X t c)) bd' bm') :
    let run := searchFlagged (nearestEven 24 (by norm_num)) (nearestEven 53 (by norm_num)) hz
      (binArith sqrt) fltMin junk cc width binSk lt gt nsk d (binStat sqrtN) ro op tiny zeroDrift
    run (dense bd' [(T : Int), (N : Int)]) (dense bm' [(T : Int), (N : Int)]) j' h' =
      List.map (Hit.inUnit (Fl.scale m)) <$>
        run (dense bd [(T : Int), (N : Int)]) (dense bm [(T : Int), (N : Int)]) j h :=
  C118_unit_of_file _ _ hz _ fltMin junk cc width _ lt gt nsk d _ ro op tiny zeroDrift T N X k _ _ _ _
    _ (binaryScaling 24 m) (binaryScalingD sqrt m) (binSk_gain m) (binStat_gain sqrtN m hq) hr hd
    { trans := fun _ _ _ h1 h2 => lt_trans (α := ℚ) h1 h2
      irrefl := fun a => lt_irrefl a.q
      half := fun v hv => by
        show rne 24 (op.thr.q / 2) < v.q
        have e := (abs_le.mp (rne_err (p := 24) (op.thr.q / 2))).2
        rw [abs_of_nonneg (by positivity)] at e
        have h24 : (2 : ℚ) ^ (-((24 : ℕ) : ℤ)) ≤ 1 := by norm_num
        have hv' : op.thr.q < v.q := hv
        nlinarith
      normal := fun v hv => lt_of_le_of_lt hmin hv } j h bd bm hload j' h' bd' bm' hload'

/-- In exact arithmetic multiplying by any positive constant respects the kurtosis estimate. -/
theorem realSk_gain (c : ℝ) (hc : 0 < c) : GainSk realSk (fun x => c * x) (fun x => c * c * x) where
  zero := mul_zero _
  zeroQ := mul_zero _
  add := fun a b => (mul_add c a b).symm
  addQ := fun a b => (mul_add (c * c) a b).symm
  mul := fun a b => by show c * a * (c * b) = c * c * (a * b); ring
  ratio := fun a b => mul_div_mul_left a b (by positivity)

/-- In exact arithmetic multiplying by any positive constant respects the noise estimate. -/
theorem realStat_gain (c : ℝ) (hc : 0 < c) :
    GainStat realOps (fun x => c * x) (fun x => c * x) (fun x => c * c * x) where
  toD := fun _ => rfl
  toV := fun _ => rfl
  zero := mul_zero _
  zeroQ := mul_zero _
  add := fun a b => (mul_add c a b).symm
  addQ := fun a b => (mul_add (c * c) a b).symm
  sub := fun a b => (mul_sub (c * c) a b).symm
  mul := fun a b => by show c * a * (c * b) = c * c * (a * b); ring
  div := fun a n => mul_div_assoc c a _
  divQ := fun a n => mul_div_assoc (c * c) a _
  sqrt := fun a => by
    show √(c * c * a) = c * √a
    rw [Real.sqrt_mul (by positivity), Real.sqrt_mul_self hc.le]

/-! ## A channel -/

/-- A channel of 3 time steps and 12 fine channels in memory: noise of 1 and 2, a tone of 90 that
moves by one channel per time step, a strong signal at the edge and a constant one in channel 8. -/
def exChan (c : ℚ) (t : Nat) (ch : Int) : Bin 24 :=
  ⟨c * (if ch = 3 + t then 90 else if ch = 0 then 500 else if ch = 8 then 40
    else if (ch + t) % 2 = 0 then 1 else 2)⟩

def exMem (c : ℚ) : Heap (Val (Bin 24)) where
  mem b i := if 0 ≤ i ∧ i < 36 then
      (if b = 0 then some (.num (exChan c (i / 12).toNat (i % 12))) else if b = 1 then some (.flag 0)
        else none)
    else none
  next := 2

theorem exLoaded (c : ℚ) : Loaded (exMem c) 3 12 (exChan c) 0 1 where
  apart := by decide
  dataIn := Nat.zero_lt_two
  maskIn := Nat.one_lt_two
  data := by
    intro i hi
    obtain ⟨t, ch, rfl, h1, h2, h3, h4⟩ := valid2 hi
    have e : addr (dense 0 [((3 : Nat) : Int), ((12 : Nat) : Int)]).dims [t, ch] = 12 * t + ch := by
      simp [addr, dense, denseDims]
      try ring
    show (exMem c).mem 0 _ = _
    rw [e]
    have e1 : (12 * t + ch) / 12 = t := by omega
    have e2 : (12 * t + ch) % 12 = ch := by omega
    have e3 : 0 ≤ 12 * t + ch ∧ 12 * t + ch < 36 := by omega
    simp only [exMem, e3, e1, e2, onIdx]
    simp
  mask := by
    intro i hi
    obtain ⟨t, ch, rfl, h1, h2, h3, h4⟩ := valid2 hi
    have e : addr (dense 1 [((3 : Nat) : Int), ((12 : Nat) : Int)]).dims [t, ch] = 12 * t + ch := by
      simp [addr, dense, denseDims]
      try ring
    show (exMem c).mem 1 _ = _
    rw [e]
    have e3 : 0 ≤ 12 * t + ch ∧ 12 * t + ch < 36 := by omega
    simp [exMem, e3]

def exRun (c : ℚ) : Outcome (List (Hit (Bin 24) Fl)) :=
  searchFlagged (nearestEven 24 (by norm_num)) (nearestEven 53 (by norm_num)) id (binArith binSqrt)
    ⟨2 ^ (-126 : ℤ)⟩ (fun _ => 0) ⟨.fin 0, .fin 1, .fin 0, .fin 1, 0⟩ (fun _ => 1) binSk
    (fun x => decide (x.q < 1 / 20)) (fun x => decide (5 < x.q)) 1 ⟨2⟩ (binStat binSqrt)
    { low := -2, high := 3, step := 1 } ⟨.connectedComponents, ⟨250⟩, 1⟩
    (fun x => match x with | .fin q => decide (|q| < 1 / 1000000) | _ => false) true
    (dense 0 [(3 : Nat), (12 : Nat)]) (dense 1 [(3 : Nat), (12 : Nat)]) (fun _ _ _ => .flag 0) (exMem c)

def exHits (c : ℚ) : Option (List (ℚ × Int × Int × ℚ)) :=
  match exRun c with
  | .ok l => some (l.map fun h => (h.snr.q, h.startFreqIndex, h.rateIndex,
      match h.power with | .fin q => q | _ => 0))
  | _ => none

-- the tone is found in either unit, with the same signal to noise ratio; the edge and the constant
-- signal are not reported
example : exHits 1 = some [(5032195 / 16384, 3, 4, 11595503 / 131072)] ∧
    exHits (1 / 1024) = some [(5032195 / 16384, 3, 4, 11595503 / 131072 / 1024)] := by
  decide +kernel

-- the flags: edges, high kurtosis where the tone passes, low kurtosis of the constant signal
example : (List.range 12).map (fun c : Nat => flagsOf binSk (fun x => decide (x.q < 1 / 20))
      (fun x => decide (5 < x.q)) 1 ⟨2⟩ 1 3 12 (exChan 1) 0 c) =
    [3, 0, 0, 4, 4, 4, 0, 0, 2, 0, 1, 1] := by decide +kernel

-- the theorems apply to it
example : Loaded (exMem 1) 3 12 (exChan 1) 0 1 ∧ FlagRange (fun _ => 1) 1 3 12 1 ∧
    Defined { low := -2, high := 3, step := 1 } 3 12 ∧
    (∀ (m : ℤ) x, binSqrt (2 ^ (m + m) * x) = 2 ^ m * binSqrt x) := by
  refine ⟨exLoaded 1, ⟨by decide, rfl, by decide, by decide, by decide⟩,
    ⟨by decide, by decide, by decide, fun i hi => ?_⟩, binSqrt_scale⟩
  have : i < 5 := by
    have : ((3 : Int) - -2).tdiv 1 = 5 := by decide
    simp only [this] at hi
    omega
  interval_cases i <;> decide

end Bliss.Hit
