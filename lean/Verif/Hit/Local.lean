import Verif.Comp.Local
import Verif.Hit.Survive

/-!
# Hits depend on their part of the band only (C148)

What is far from a range of channels, by twice the fastest drift and with quiet lines in between, does
not change the hits in that range.
-/

namespace Bliss.Hit

open Bliss.Comp (Coord Grid Protohit Search findThresh SameRange)
open Bliss.Drift Bliss.Float

/-! ## Specification -/

section
variable {F : Type}

/-- Two spectra with their flags that are equal in the channels from `lo` to `hi`. -/
def SameBand (T : Nat) (X Y : Nat → Int → F) (Q R : Nat → Int → UInt8) (lo hi : Int) : Prop :=
  ∀ t < T, ∀ c : Int, lo ≤ c → c < hi → X t c = Y t c ∧ Q t c = R t c

/-- No line that starts in the channels from `lo` to `hi` is above half the threshold: for every
searched drift, every way to round its line and every width over which it may be averaged. -/
def QuietLines [Zero F] [Add F] [Sub F] [Div F] [IntCast F] [LT F] [OfNat F 2] (ar : Arith F Fl)
    (noisePower floor thr : F) (T N : Nat) (ro : RateOptions) (X : Nat → Int → F) (lo hi : Int) : Prop :=
  ∀ i : Nat, (i : Int) < (ro.high - ro.low).tdiv ro.step → ∀ c : Int, 0 ≤ c → c < N → lo ≤ c → c < hi →
    ∀ (w : Int) (off : Nat → Int), 1 ≤ w → w ≤ max 1 |ro.low + i * ro.step| →
      (ro.desmear = false ∨ |ro.low + i * ro.step| ≤ (T : Int) - 1 → w = 1) →
      StraightPath (ro.low + i * ro.step) T (2 ^ (-23 : ℤ) + 2 ^ (-51 : ℤ)) off →
      ¬ thr / 2 < (pathSum X w (path N T (decide (0 ≤ ro.low + i * ro.step)) (ro.low + i * ro.step)
        w.toNat off c) / ((T : Int) : F) - floor) / driftNoise ar noisePower (T * w)

end

/-! ## Proof -/

theorem rates_desmear_le {R24 : Rounding 24} {hz : Fl → Fl} {T : Nat} {ro : RateOptions}
    {rates : List (Rate Fl)} (hc : computeDrifts R24 hz T ro = .ok rates) (hT : 2 ≤ T)
    (hT' : (T : Int) - 1 ≤ 2 ^ 24) {i : Nat} {r : Rate Fl} (hr : rates[i]? = some r)
    (hsmall : |ro.low + i * ro.step| ≤ 2 ^ 24) :
    1 ≤ r.desmear ∧ r.desmear ≤ max 1 |ro.low + i * ro.step| ∧
      (ro.desmear = false ∨ |ro.low + i * ro.step| ≤ (T : Int) - 1 → r.desmear = 1) := by
  have hmk : mkRate R24 hz T ro i = .ok r := by
    unfold computeDrifts at hc
    split at hc
    · cases hc
    dsimp only at hc
    split at hc
    · cases hc
    obtain ⟨h2, h3⟩ := mkRates_inv hc
    have hi : i < rates.length := by
      rw [List.getElem?_eq_some_iff] at hr; exact hr.1
    obtain ⟨r', h4, h5⟩ := h3 i (by omega)
    rw [hr] at h4
    obtain rfl := Option.some.inj h4
    exact h5
  obtain ⟨_, _, m3, m4, m5⟩ := mkRate_inv hmk
  rw [slope_eq R24 hsmall hT hT'] at m3
  rw [m3] at m5
  have hn : (1 : ℚ) ≤ (T : ℚ) - 1 := by
    have : (2 : ℚ) ≤ T := by exact_mod_cast hT
    linarith
  have hq : |((ro.low + i * ro.step : Int) : ℚ) / ((T : ℚ) - 1)| ≤
      ((|ro.low + i * ro.step| : Int) : ℚ) := by
    rw [abs_div, abs_of_pos (by linarith : (0 : ℚ) < (T : ℚ) - 1), div_le_iff₀ (by linarith)]
    push_cast
    have h0 := abs_nonneg ((ro.low : ℚ) + i * ro.step)
    nlinarith
  rw [abs_le] at hq
  have u1 := R24.mono _ _ hq.2
  have u2 := R24.mono _ _ hq.1
  have e1 := R24.int |ro.low + i * ro.step| (by rw [abs_abs]; exact hsmall)
  have e2 := R24.int (-|ro.low + i * ro.step|) (by rw [abs_neg, abs_abs]; exact hsmall)
  rw [e1] at u1
  rw [Int.cast_neg] at e2
  rw [e2] at u2
  obtain ⟨k1, k2⟩ := desmearBins_le m5 (abs_le.2 ⟨u2, u1⟩)
  exact ⟨k1, k2, (rates_plain_of hc hT hT' hr hsmall).2⟩

/-- The samples on a line lie within twice its drift of its start, inside the band. -/
theorem mem_path_near {N T : Nat} {d : Int} {ε : ℚ} {off : Nat → Int} (hs : StraightPath d T ε off)
    {w : Int} (hw : w ≤ max 1 |d|) {c : Int} (c1 : 0 ≤ c) (c2 : c < N) {s : Nat × Int}
    (h : s ∈ path N T (decide (0 ≤ d)) d w.toNat off c) :
    s.1 < T ∧ |s.2 - c| ≤ 2 * |d| ∧ 0 ≤ s.2 ∧ s.2 < N := by
  unfold path at h
  simp only [List.mem_flatMap, List.mem_range, List.mem_filterMap] at h
  obtain ⟨t, ht, k, hk, e⟩ := h
  simp only [Option.map_eq_some_iff] at e
  obtain ⟨y, hy, rfl⟩ := e
  refine ⟨ht, ?_⟩
  have hin := hs.inside t ht
  have hwk : (k : Int) + 1 ≤ max 1 |d| := by omega
  unfold pathChannel at hy
  by_cases hd : 0 ≤ d
  · simp only [hd, decide_true, if_true] at hy
    rw [abs_of_nonneg hd] at hwk ⊢
    rw [min_eq_left hd, max_eq_right hd] at hin
    split at hy
    · have := Option.some.inj hy
      dsimp only
      rw [abs_le]
      refine ⟨⟨?_, ?_⟩, ?_, ?_⟩ <;> omega
    · cases hy
  · have hd' : d < 0 := by omega
    simp only [hd, decide_false, Bool.false_eq_true, if_false] at hy
    rw [abs_of_neg hd'] at hwk ⊢
    rw [min_eq_right hd'.le, max_eq_left hd'.le] at hin
    split at hy
    · have := Option.some.inj hy
      dsimp only
      rw [abs_le]
      refine ⟨⟨?_, ?_⟩, ?_, ?_⟩ <;> omega
    · cases hy

section
variable {F : Type} [Zero F] [Add F] [Sub F] [Div F] [IntCast F] [LT F] [DecidableLT F] [OfNat F 2]

omit [Zero F] [Add F] [IntCast F] [LT F] [DecidableLT F] [OfNat F 2] in
/-- Hits of clusters that are picked by where their peak is. -/
theorem toHits_filter {D : Type} {ar : Arith F D} {junk : Coord → Int} {cc : Channel D} {p : Plane F D}
    {floor : F} (a b : Int) {cs : List (Protohit F)} {hs : List (Hit F D)}
    (e : toHits ar junk cc p floor cs = .ok hs) :
    toHits ar junk cc p floor (cs.filter fun c => decide (a ≤ c.indexMax.2 ∧ c.indexMax.2 < b)) =
      .ok (hs.filter fun h => decide (a ≤ h.startFreqIndex ∧ h.startFreqIndex < b)) := by
  induction cs generalizing hs with
  | nil => cases e; rfl
  | cons c cs ih =>
    unfold toHits at e
    cases h1 : toHit ar junk cc p floor c with
    | throws x => rw [h1] at e; cases e
    | ub => rw [h1] at e; cases e
    | ok x =>
      rw [h1, Outcome.bind_ok] at e
      cases h2 : toHits ar junk cc p floor cs with
      | throws x => rw [h2] at e; cases e
      | ub => rw [h2] at e; cases e
      | ok xs =>
        rw [h2, Outcome.bind_ok] at e
        obtain rfl := Outcome.ok.inj e
        have hx : x.startFreqIndex = c.indexMax.2 := by
          unfold toHit at h1
          split at h1
          · rw [← Outcome.ok.inj h1]
          · cases h1
        rw [List.filter_cons, List.filter_cons, hx]
        split
        · unfold toHits
          rw [h1, ih h2]
          rfl
        · exact ih h2

omit [Zero F] [Add F] [IntCast F] [LT F] [DecidableLT F] [OfNat F 2] in
theorem toHits_plane {D : Type} {ar : Arith F D} {junk : Coord → Int} {cc : Channel D}
    {p q : Plane F D} (h1 : p.rates = q.rates) (h2 : p.steps = q.steps) {floor : F}
    (cs : List (Protohit F)) : toHits ar junk cc p floor cs = toHits ar junk cc q floor cs := by
  induction cs with
  | nil => rfl
  | cons c cs ih =>
    unfold toHits
    rw [ih]
    have : toHit ar junk cc p floor c = toHit ar junk cc q floor c := by
      unfold toHit
      rw [h1, h2]
    rw [this]

/-- **C148.** Search two spectra of the same size with the same options and the same noise estimate, in
any arithmetic. Suppose they and their flags agree in the channels from `a` to `b` and twice the fastest
drift to either side, and in both, no line that starts within the neighbour distance outside `a`, `b` is
above half the threshold. Then both searches return, and the hits that start from `a` to `b` are the
same: all their fields, in the same order. -/
theorem C148_hits_local (R24 : Rounding 24) (R53 : Rounding 53) (hz : Fl → Fl) (ar : Arith F Fl)
    (fltMin : F) (junk : Coord → Int) (cc : Channel Fl) {inp inp' : Input F}
    {X Y : Nat → Int → F} {Q R : Nat → Int → UInt8} (hin : Holds inp X Q) (hin' : Holds inp' Y R)
    (hview : inp.specOffset = 0 ∧ inp.rfiOffset = 0) (hview' : inp'.specOffset = 0 ∧ inp'.rfiOffset = 0)
    {T N : Nat} (hsize : inp.timeSteps = T ∧ inp.numChannels = N)
    (hsize' : inp'.timeSteps = T ∧ inp'.numChannels = N) {ro : RateOptions} (hd : Defined ro T N)
    (noisePower floor : F) (o : Options F) (hm : o.method = .connectedComponents)
    (hs : Sane fltMin o.thr) {S : Int}
    (hS : ∀ i : Nat, (i : Int) < (ro.high - ro.low).tdiv ro.step → |ro.low + i * ro.step| ≤ S)
    {a b : Int} (hsame : SameBand T X Y Q R (a - 2 * S) (b + 2 * S))
    (hquiet : ∀ Z, Z = X ∨ Z = Y →
      QuietLines ar noisePower floor o.thr T N ro Z (a - o.dist) a ∧
      QuietLines ar noisePower floor o.thr T N ro Z b (b + o.dist)) :
    ∃ hits hits', driftSearch R24 R53 hz ar fltMin junk cc inp ro noisePower floor o = .ok hits ∧
      driftSearch R24 R53 hz ar fltMin junk cc inp' ro noisePower floor o = .ok hits' ∧
      hits.filter (fun h => decide (a ≤ h.startFreqIndex ∧ h.startFreqIndex < b)) =
        hits'.filter (fun h => decide (a ≤ h.startFreqIndex ∧ h.startFreqIndex < b)) := by
  obtain ⟨rfl, rfl⟩ := hsize
  obtain ⟨e1, e2⟩ := hsize'
  obtain ⟨rates, off, hcd, hlen, hofs, hall⟩ := driftSetup R24 R53 hz (N := inp.numChannels) hd.steps.1
    hd.steps.2 hd.step hd.some hd.range
  have hcells : ∀ (v : Input F) (Z : Nat → Int → F) (M : Nat → Int → UInt8), Holds v Z M →
      v.specOffset = 0 ∧ v.rfiOffset = 0 → v.timeSteps = inp.timeSteps → v.numChannels = inp.numChannels →
      ∃ acc, integrateDrifts R24 R53 hz v ro = .ok (acc, rates) ∧
        ∀ (i : Nat) (r : Rate Fl), rates[i]? = some r → ∀ c : Int, 0 ≤ c → c < inp.numChannels →
          let p := path inp.numChannels inp.timeSteps (decide (0 ≤ r.span)) r.span r.desmear.toNat (off i) c
          acc.plane (i * inp.numChannels + c) =
            some (pathSum Z r.desmear p / ((inp.timeSteps : Int) : F)) ∧
          ∃ l h o', acc.lowsk (i * inp.numChannels + c) = some l ∧
            acc.highsk (i * inp.numChannels + c) = some h ∧
            acc.rolloff (i * inp.numChannels + c) = some o' ∧
            l.toNat = pathFlags M 2 p % 256 ∧ h.toNat = pathFlags M 4 p % 256 ∧
            o'.toNat = pathFlags M 1 p % 256 := by
    intro v Z M hv hvw ht hn
    have hfit : ∀ (i : Nat) (r : Rate Fl), rates[i]? = some r →
        Fits v.numChannels v.timeSteps ((flOps R53).nonneg r.slope) r.span r.desmear (off i) := by
      intro i r hr
      rw [ht, hn]
      exact (hall i r hr).1
    have hofs' : OffsetsAre (flOps R53) rates v.timeSteps off := by rw [ht]; exact hofs
    obtain ⟨acc, ha, hcell⟩ := C01_drift_plane_cell hv hvw hofs' hfit
    obtain ⟨a', ha', hcount⟩ := C04_counters_mod_256 hv hvw hofs' hfit
    rw [ha] at ha'
    obtain rfl := Outcome.ok.inj ha'
    refine ⟨acc, ?_, ?_⟩
    · unfold integrateDrifts
      rw [ht, hcd]
      simp only [Outcome.bind_ok]
      cases hrs : rates with
      | nil => rw [hrs] at hlen; have := hd.some; simp at hlen; omega
      | cons r rs =>
        rw [hrs] at ha
        simp only [ha]
        rfl
    · intro i r hr c h0 hc
      obtain ⟨-, g2, -⟩ := hall i r hr
      dsimp only
      rw [← g2]
      have k1 := hcell i r hr c h0 (by rw [hn]; exact hc)
      have k2 := hcount i r hr c h0 (by rw [hn]; exact hc)
      rw [ht, hn] at k1 k2
      exact ⟨k1, k2⟩
  obtain ⟨A, A1, A2⟩ := hcells inp X Q hin hview rfl rfl
  obtain ⟨B, B1, B2⟩ := hcells inp' Y R hin' hview' e1 e2
  -- a cell of the plane
  have hat : ∀ c : Coord, (⟨rates.length, inp.numChannels⟩ : Grid).has c → ∃ (i : Nat) (r : Rate Fl),
      c.1 = i ∧ rates[i]? = some r ∧ (i : Int) < (ro.high - ro.low).tdiv ro.step ∧
      r.span = ro.low + i * ro.step ∧ 1 ≤ r.desmear ∧ r.desmear ≤ max 1 |ro.low + i * ro.step| ∧
      (ro.desmear = false ∨ |ro.low + i * ro.step| ≤ (inp.timeSteps : Int) - 1 → r.desmear = 1) ∧
      StraightPath (ro.low + i * ro.step) inp.timeSteps (2 ^ (-23 : ℤ) + 2 ^ (-51 : ℤ)) (off i) ∧
      0 ≤ c.2 ∧ c.2 < inp.numChannels := by
    rintro ⟨x, c⟩ ⟨x1, x2, x3, x4⟩
    dsimp only at x1 x2 x3 x4
    obtain ⟨i, rfl⟩ : ∃ i : Nat, x = i := ⟨x.toNat, (Int.toNat_of_nonneg x1).symm⟩
    have hil : i < rates.length := by exact_mod_cast x2
    have hget := List.getElem?_eq_getElem hil
    obtain ⟨-, -, -, g4, -, g6⟩ := hall i _ hget
    have hil' : (i : Int) < (ro.high - ro.low).tdiv ro.step := by omega
    have hsm := (hd.range i hil').1
    obtain ⟨w1, w2, w3⟩ := rates_desmear_le hcd hd.steps.1 hd.steps.2 hget (by omega)
    rw [g4] at g6
    exact ⟨i, _, rfl, hget, hil', g4, w1, w2, w3, g6, x3, x4⟩
  have hR : SameRange (toSearch ar (planeOf inp A rates) noisePower floor o)
      (toSearch ar (planeOf inp' B rates) noisePower floor o) a b := by
    refine ⟨?_, rfl, ?_, rfl, rfl, ?_, ?_, ?_, ?_⟩
    · show (⟨rates.length, inp.numChannels⟩ : Grid) = ⟨rates.length, inp'.numChannels⟩
      rw [e2]
    · show (toSearch ar (planeOf inp A rates) noisePower floor o).noise =
        (toSearch ar (planeOf inp' B rates) noisePower floor o).noise
      simp only [toSearch, planeOf, e1]
    · intro c hc c1 c2
      obtain ⟨i, r, x1, x2, x3, x4, x5, x6, x7, x8, x9, x10⟩ := hat c hc
      show (A.plane (c.1 * inp.numChannels + c.2)).getD 0 =
        (B.plane (c.1 * inp'.numChannels + c.2)).getD 0
      rw [e2, x1, (A2 i r x2 c.2 x9 x10).1, (B2 i r x2 c.2 x9 x10).1, Option.getD_some,
        Option.getD_some]
      congr 1
      unfold pathSum
      refine List.foldl_ext _ _ _ fun acc s hsm => ?_
      rw [x4] at hsm
      obtain ⟨y1, y2, -⟩ := mem_path_near x8 x6 x9 x10 hsm
      have y3 := hS i x3
      rw [abs_le] at y2
      rw [(hsame s.1 y1 s.2 (by omega) (by omega)).1]
    · intro c hc c1 c2
      obtain ⟨i, r, x1, x2, x3, x4, x5, x6, x7, x8, x9, x10⟩ := hat c hc
      obtain ⟨-, l, h, o', q1, q2, q3, q4, q5, q6⟩ := A2 i r x2 c.2 x9 x10
      obtain ⟨-, l', h', o'', p1, p2, p3, p4, p5, p6⟩ := B2 i r x2 c.2 x9 x10
      have hfl : ∀ f : UInt8, pathFlags Q f (path inp.numChannels inp.timeSteps (decide (0 ≤ r.span))
          r.span r.desmear.toNat (off i) c.2) = pathFlags R f (path inp.numChannels inp.timeSteps
          (decide (0 ≤ r.span)) r.span r.desmear.toNat (off i) c.2) := by
        intro f
        unfold pathFlags
        refine List.countP_congr fun s hsm => ?_
        rw [x4] at hsm
        obtain ⟨y1, y2, -⟩ := mem_path_near x8 x6 x9 x10 hsm
        have y3 := hS i x3
        rw [abs_le] at y2
        rw [(hsame s.1 y1 s.2 (by omega) (by omega)).2]
      show (((A.lowsk (c.1 * inp.numChannels + c.2)).getD 0).toNat,
        ((A.highsk (c.1 * inp.numChannels + c.2)).getD 0).toNat,
        ((A.rolloff (c.1 * inp.numChannels + c.2)).getD 0).toNat) =
        (((B.lowsk (c.1 * inp'.numChannels + c.2)).getD 0).toNat,
        ((B.highsk (c.1 * inp'.numChannels + c.2)).getD 0).toNat,
        ((B.rolloff (c.1 * inp'.numChannels + c.2)).getD 0).toNat)
      rw [e2, x1, q1, q2, q3, p1, p2, p3]
      simp only [Option.getD_some]
      rw [q4, q5, q6, p4, p5, p6, hfl 2, hfl 4, hfl 1]
    · intro c hc hgap
      obtain ⟨i, r, x1, x2, x3, x4, x5, x6, x7, x8, x9, x10⟩ := hat c hc
      have hcell := snr_cell (ar := ar) (noisePower := noisePower) (floor := floor) (o := o) x2
        (A2 i r x2 c.2 x9 x10).1
      rw [x4] at hcell
      have : c = ((i : Int), c.2) := by rw [← x1]
      rw [this, hcell]
      rcases hgap with ⟨h1, h2⟩ | ⟨h1, h2⟩
      · exact (hquiet X (Or.inl rfl)).1 i x3 c.2 x9 x10 h1 h2 _ _ x5 x6 x7 x8
      · exact (hquiet X (Or.inl rfl)).2 i x3 c.2 x9 x10 h1 h2 _ _ x5 x6 x7 x8
    · intro c hc hgap
      obtain ⟨i, r, x1, x2, x3, x4, x5, x6, x7, x8, x9, x10⟩ := hat c hc
      have hcell := snr_cell (ar := ar) (noisePower := noisePower) (floor := floor) (o := o) x2
        (inp := inp') (by rw [e2]; exact (B2 i r x2 c.2 x9 x10).1)
      rw [x4, e1] at hcell
      have : c = ((i : Int), c.2) := by rw [← x1]
      rw [this, hcell]
      rcases hgap with ⟨h1, h2⟩ | ⟨h1, h2⟩
      · exact (hquiet Y (Or.inr rfl)).1 i x3 c.2 x9 x10 h1 h2 _ _ x5 x6 x7 x8
      · exact (hquiet Y (Or.inr rfl)).2 i x3 c.2 x9 x10 h1 h2 _ _ x5 x6 x7 x8
  obtain ⟨cs, ds, f1, f2, f3⟩ := Comp.findThresh_local hR fltMin hs.half hs.normal
  obtain ⟨cs', hs1, k1, k2, -⟩ := hitSearch_covers ar fltMin junk cc (planeOf inp A rates)
    noisePower floor o hm hs.trans hs.irrefl (by simp [planeOf]) hs.half hs.normal
  obtain ⟨ds', hs2, m1, m2, -⟩ := hitSearch_covers ar fltMin junk cc (planeOf inp' B rates)
    noisePower floor o hm hs.trans hs.irrefl (by simp [planeOf]) hs.half hs.normal
  rw [f1] at k1
  obtain rfl := Outcome.ok.inj k1
  rw [f2] at m1
  obtain rfl := Outcome.ok.inj m1
  have t1 : toHits ar junk cc (planeOf inp A rates) floor cs = .ok hs1 := by
    have := k2
    unfold hitSearch protohitSearch at this
    rw [if_neg (by simp [planeOf]), hm] at this
    simp only [f1, Outcome.bind_ok] at this
    exact this
  have t2 : toHits ar junk cc (planeOf inp' B rates) floor ds = .ok hs2 := by
    have := m2
    unfold hitSearch protohitSearch at this
    rw [if_neg (by simp [planeOf]), hm] at this
    simp only [f2, Outcome.bind_ok] at this
    exact this
  refine ⟨hs1, hs2, ?_, ?_, ?_⟩
  · simp only [driftSearch, A1, Outcome.bind_ok]; exact k2
  · simp only [driftSearch, B1, Outcome.bind_ok]; exact m2
  · have u1 := toHits_filter a b t1
    have u2 := toHits_filter a b t2
    rw [f3, toHits_plane (p := planeOf inp A rates) (q := planeOf inp' B rates) rfl (by simp [planeOf, e1]), u2] at u1
    exact (Outcome.ok.inj u1).symm

end

/-! ## Quiet channels have quiet lines -/

section
variable {F : Type} [Field F] [LinearOrder F] [IsStrictOrderedRing F]

theorem pathSum_le {X : Nat → Int → F} {w : Int} (hw : 1 ≤ w) {v : F} {p : List (Nat × Int)}
    (h : ∀ s ∈ p, X s.1 s.2 ≤ v) : pathSum X w p ≤ p.length * (v / w) := by
  have hw' : (0 : F) < w := by exact_mod_cast (by omega : 0 < w)
  have : ∀ (p : List (Nat × Int)), (∀ s ∈ p, X s.1 s.2 ≤ v) → ∀ z : F,
      p.foldl (fun acc s => acc + X s.1 s.2 / (w : F)) z ≤ z + p.length * (v / w) := by
    intro p
    induction p with
    | nil => intro _ z; simp
    | cons s p ih =>
      intro h z
      refine (ih (fun x hx => h x (List.mem_cons_of_mem _ hx)) _).trans ?_
      have := div_le_div_of_nonneg_right (h s List.mem_cons_self) hw'.le
      push_cast [List.length_cons]
      linarith
  have := this p h 0
  rwa [zero_add] at this

omit [Field F] [LinearOrder F] [IsStrictOrderedRing F] in
theorem path_length_le (N T : Nat) (up : Bool) (span : Int) (w : Nat) (off : Nat → Int) (c : Int) :
    (path N T up span w off c).length ≤ T * w := by
  unfold path
  rw [List.length_flatMap]
  have : ∀ l : List Nat, (l.map fun t => ((List.range w).filterMap fun k =>
      (pathChannel N up span (off t) k c).map fun ch => (t, ch)).length).sum ≤ l.length * w := by
    intro l
    induction l with
    | nil => simp
    | cons t l ih =>
      rw [List.map_cons, List.sum_cons, List.length_cons, Nat.add_mul, Nat.one_mul, Nat.add_comm]
      refine Nat.add_le_add ih ((List.length_filterMap_le _ _).trans ?_)
      simp
  simpa using this (List.range T)

/-- If no sample within twice the fastest drift is above a level, and that level is not above half the
threshold, the lines are quiet. -/
theorem QuietLines.of_level {ar : Arith F Fl} {noisePower floor thr v : F} {T N : Nat} (hT : 0 < T)
    {ro : RateOptions} {X : Nat → Int → F} {lo hi S : Int}
    (hS : ∀ i : Nat, (i : Int) < (ro.high - ro.low).tdiv ro.step → |ro.low + i * ro.step| ≤ S)
    (hv : 0 ≤ v) (hX : ∀ t < T, ∀ c : Int, 0 ≤ c → c < N →
      lo - 2 * S ≤ c → c < hi + 2 * S → X t c ≤ v)
    (hlevel : ∀ w : Int, 1 ≤ w → w ≤ max 1 S →
      ((ro.desmear = false ∨ ∀ i : Nat, (i : Int) < (ro.high - ro.low).tdiv ro.step →
        |ro.low + i * ro.step| ≤ (T : Int) - 1) → w = 1) →
      0 < driftNoise ar noisePower (T * w) ∧
      (v - floor) / driftNoise ar noisePower (T * w) ≤ thr / 2) :
    QuietLines ar noisePower floor thr T N ro X lo hi := by
  intro i hi c c1 c2 c3 c4 w off w1 w2 w3 hstr
  have hSi := hS i hi
  obtain ⟨n1, n2⟩ := hlevel w w1 (w2.trans (max_le_max le_rfl hSi)) (fun h => w3 (by
    rcases h with h | h
    · exact Or.inl h
    · exact Or.inr (h i hi)))
  refine not_lt.mpr (le_trans ?_ n2)
  refine div_le_div_of_nonneg_right (sub_le_sub_right ?_ _) n1.le
  have hT0 : (0 : F) < ((T : Int) : F) := by exact_mod_cast hT
  refine (div_le_iff₀ hT0).mpr ?_
  have hp := pathSum_le (X := X) (v := v) w1 (p := path N T (decide (0 ≤ ro.low + i * ro.step))
    (ro.low + i * ro.step) w.toNat off c) (fun s hs => by
      obtain ⟨s1, s2, s3, s4⟩ := mem_path_near hstr w2 c1 c2 hs
      rw [abs_le] at s2
      exact hX s.1 s1 s.2 s3 s4 (by omega) (by omega))
  have hl := path_length_le N T (decide (0 ≤ ro.low + i * ro.step)) (ro.low + i * ro.step) w.toNat off c
  have hw' : (0 : F) < w := by exact_mod_cast (by omega : 0 < w)
  refine hp.trans ?_
  have hl' : (((path N T (decide (0 ≤ ro.low + i * ro.step)) (ro.low + i * ro.step) w.toNat off
      c).length : Nat) : F) ≤ (T : F) * w := by
    have h1 : (((path N T (decide (0 ≤ ro.low + i * ro.step)) (ro.low + i * ro.step) w.toNat off
      c).length : Nat) : Int) ≤ (T : Int) * w := by
      have : ((T * w.toNat : Nat) : Int) = (T : Int) * w := by
        push_cast
        rw [Int.toNat_of_nonneg (by omega)]
      rw [← this]
      exact_mod_cast hl
    exact_mod_cast h1
  calc _ ≤ (T : F) * w * (v / w) := mul_le_mul_of_nonneg_right hl' (div_nonneg hv hw'.le)
    _ = v * ((T : Int) : F) := by
      rw [Int.cast_natCast]
      field_simp

end

/-! ## A tone among other signals -/

section
open Bliss.Nd Bliss.Stat Bliss.Flag

variable {F D : Type} [Field F] [LinearOrder F] [IsStrictOrderedRing F]

/-- A tone over a background in the channels from `lo` to `hi`; nothing is said about the others. -/
structure ToneIn (T N : Nat) (X : Nat → Int → F) (c₀ d : Int) (ch : Nat → Int) (b : F) (lo hi : Int) :
    Prop where
  line : ToneLine T c₀ d ch
  start : 0 ≤ c₀ ∧ c₀ < N
  stop : 0 ≤ c₀ + d ∧ c₀ + d < N
  level : 0 ≤ b
  tone : ∀ t < T, b < X t (ch t)
  rest : ∀ t < T, ∀ c : Int, 0 ≤ c → c < N → lo ≤ c → c < hi → c ≠ ch t → X t c ≤ b

/-- **C148, with C147.** The tone of `C147_tone_survives_partial` in a channel with any other signals,
also stronger ones: if they stay outside the channels from `a` to `e`, in which the tone keeps a distance
of twice the fastest drift from the ends, and a further twice the fastest drift and the neighbour
distance away from them, and the background in between is not above half the threshold, then the tone is
reported, and it is the strongest hit in these channels.

Missing: desmeared drifts, float rounding of the sums. -/
theorem C148_tone_among_others_partial (R24 : Rounding 24) (R53 : Rounding 53) (hz : Fl → Fl)
    (ar : Arith F Fl)
    (fltMin : F) (junk : Coord → Int) (cc : Channel Fl) (width : Int → Int) (so : SkOps F)
    (lt gt : F → Bool) (nsk : Int) (dSk : F) (o : StatOps F D) (ro : RateOptions) (op : Options F)
    (tiny : Fl → Bool) (zeroDrift : Bool) (j : Nat → Nat → Int → Val F) (h : Heap (Val F))
    (T N : Nat) (X : Nat → Int → F) (k : Int) (bd bm : Nat) (hr : FlagRange width nsk T N k)
    (hload : Loaded h T N X bd bm) (hd : Defined ro T N)
    (hplain : ro.desmear = false ∨ ∀ i : Nat, (i : Int) < (ro.high - ro.low).tdiv ro.step →
      |ro.low + i * ro.step| ≤ (T : Int) - 1)
    {S : Int} (hS : ∀ i : Nat, (i : Int) < (ro.high - ro.low).tdiv ro.step →
      |ro.low + i * ro.step| ≤ S)
    (hm : op.method = .connectedComponents) (hdist : 0 ≤ op.dist) (hmin : 0 ≤ fltMin)
    (hthr : fltMin ≤ op.thr)
    {c₀ d : Int} {i₀ : Nat} (hi₀ : (i₀ : Int) < (ro.high - ro.low).tdiv ro.step)
    (hd₀ : d = ro.low + i₀ * ro.step) {ch : Nat → Int} {b : F} {a e : Int}
    (htone : ToneIn T N X c₀ d ch b (a - (2 * S + op.dist)) (e + (2 * S + op.dist)))
    (hwhere : ∀ t < T, a + 2 * S ≤ ch t ∧ ch t < e - 2 * S)
    (haway : Away so lt nsk dSk k T N X ch S)
    (hrate : zeroDrift = true → tiny (hz (.fin (R24.r ((d : ℚ) / ((T : ℚ) - 1))))) = false)
    (hsome : clean T N (flagsOf so lt gt nsk dSk k T N X) ≠ []) :
    let l := clean T N (flagsOf so lt gt nsk dSk k T N X)
    let noise := driftNoise ar (powerOf o X l) T
    let snr := fun v : F => (v - floorOf o X l) / noise
    0 < noise →
    op.thr < snr ((∑ t ∈ Finset.range T, X t (ch t)) / (T : F)) →
    snr b ≤ op.thr / 2 →
    ∃ (hits : List (Hit F Fl)) (hit : Hit F Fl),
      searchFlagged R24 R53 hz ar fltMin junk cc width so lt gt nsk dSk o ro op tiny zeroDrift
        (dense bd [(T : Int), (N : Int)]) (dense bm [(T : Int), (N : Int)]) j h = .ok hits ∧
      hit ∈ hits ∧ hit.startFreqIndex = c₀ ∧ hit.rateIndex = i₀ ∧
      hit.driftRate = hz (.fin (R24.r ((d : ℚ) / ((T : ℚ) - 1)))) ∧
      hit.snr = snr ((∑ t ∈ Finset.range T, X t (ch t)) / (T : F)) ∧
      ∀ hit' ∈ hits, a ≤ hit'.startFreqIndex → hit'.startFreqIndex < e → hit'.snr ≤ hit.snr := by
  intro l noise snr hnoise habove hback
  set Q := flagsOf so lt gt nsk dSk k T N X with hQ
  have hT : 0 < T := by have := hd.steps.1; omega
  have hS0 : 0 ≤ S := (abs_nonneg _).trans (hS i₀ hi₀)
  have hthr0 : 0 ≤ op.thr := hmin.trans hthr
  let G := 2 * S + op.dist
  let Y : Nat → Int → F := fun t c => if a - G ≤ c ∧ c < e + G then X t c else 0
  have hYch : ∀ t < T, Y t (ch t) = X t (ch t) := fun t ht => if_pos (by
    have := hwhere t ht
    show a - (2 * S + op.dist) ≤ ch t ∧ ch t < e + (2 * S + op.dist)
    omega)
  have htoneY : ToneOver T N Y c₀ d ch b := by
    refine ⟨htone.line, htone.start, htone.stop, htone.level, fun t ht => ?_, fun t ht c h0 hc hne => ?_⟩
    · rw [hYch t ht]; exact htone.tone t ht
    · show (if a - G ≤ c ∧ c < e + G then X t c else 0) ≤ b
      split
      · next hin => exact htone.rest t ht c h0 hc hin.1 hin.2 hne
      · exact htone.level
  have hsum : ∑ t ∈ Finset.range T, Y t (ch t) = ∑ t ∈ Finset.range T, X t (ch t) :=
    Finset.sum_congr rfl fun t ht => hYch t (Finset.mem_range.mp ht)
  have hhalf : op.thr / 2 ≤ op.thr := half_le_self hthr0
  obtain ⟨hs', hit, e1, e2, e3, e4, e5, e6, e7, hacc⟩ := tone_clear R24 R53 hz ar fltMin junk cc ro op
    tiny zeroDrift T N Y Q hd hplain hS hm hmin hthr hi₀ hd₀ htoneY
    (fun t ht x hx t' _ => by
      obtain ⟨v1, v2, v3⟩ := haway t ht x hx
      exact flags_clear so lt gt nsk dSk k T N X t' v1 v2 v3)
    hrate (powerOf o X l) (floorOf o X l) hnoise (by rw [hsum]; exact habove) (hback.trans hhalf)
  have hlevel : ∀ w : Int, 1 ≤ w → w ≤ max 1 S →
      ((ro.desmear = false ∨ ∀ i : Nat, (i : Int) < (ro.high - ro.low).tdiv ro.step →
        |ro.low + i * ro.step| ≤ (T : Int) - 1) → w = 1) →
      0 < driftNoise ar (powerOf o X l) (T * w) ∧
      (b - floorOf o X l) / driftNoise ar (powerOf o X l) (T * w) ≤ op.thr / 2 := by
    intro w _ _ w3
    rw [w3 hplain, mul_one]
    exact ⟨hnoise, hback⟩
  have hbg : ∀ t < T, ∀ c : Int, 0 ≤ c → c < N → a - G ≤ c → c < e + G →
      (c < a + 2 * S ∨ e - 2 * S ≤ c) → X t c ≤ b ∧ Y t c ≤ b := by
    intro t ht c h0 hc g1 g2 hout
    have hx : X t c ≤ b := htone.rest t ht c h0 hc g1 g2 (by
      have := hwhere t ht
      rintro rfl
      omega)
    refine ⟨hx, ?_⟩
    show (if a - G ≤ c ∧ c < e + G then X t c else 0) ≤ b
    rw [if_pos ⟨g1, g2⟩]; exact hx
  have hae : a ≤ e := by
    have := hwhere 0 hT
    omega
  obtain ⟨hs, hs'', f1, f2, f3⟩ := C148_hits_local R24 R53 hz ar fltMin junk cc
    (denseInput_holds T N X Q) (denseInput_holds T N Y Q) ⟨rfl, rfl⟩ ⟨rfl, rfl⟩ (T := T) (N := N)
    ⟨rfl, rfl⟩ ⟨rfl, rfl⟩ hd (powerOf o X l) (floorOf o X l) op hm
    ⟨fun _ _ _ => lt_trans, fun _ => lt_irrefl _, fun v hv => lt_of_le_of_lt hhalf hv,
      fun v hv => lt_of_le_of_lt hthr hv⟩ hS (a := a) (b := e)
    (fun t ht c h1 h2 => ⟨(if_pos (by
      show a - (2 * S + op.dist) ≤ c ∧ c < e + (2 * S + op.dist)
      omega)).symm, rfl⟩)
    (by
      intro Z hZ
      refine ⟨QuietLines.of_level hT hS htone.level ?_ hlevel, QuietLines.of_level hT hS htone.level ?_ hlevel⟩
      · intro t ht c h0 hc g1 g2
        have := hbg t ht c h0 hc (by show a - (2 * S + op.dist) ≤ c; omega)
          (by show c < e + (2 * S + op.dist); omega) (by omega)
        rcases hZ with rfl | rfl
        · exact this.1
        · exact this.2
      · intro t ht c h0 hc g1 g2
        have := hbg t ht c h0 hc (by show a - (2 * S + op.dist) ≤ c; omega)
          (by show c < e + (2 * S + op.dist); omega) (by omega)
        rcases hZ with rfl | rfl
        · exact this.1
        · exact this.2)
  rw [e1] at f2
  obtain rfl := Outcome.ok.inj f2
  have hin0 : a ≤ c₀ ∧ c₀ < e := by
    obtain ⟨off, ho1, ho2⟩ := C06_path_geometry_partial R24 R53 (hd₀ ▸ (hd.range i₀ hi₀).1) hd.steps.1
      hd.steps.2
    have h1 := tone_offsets htone.line ho2 0 hT
    rw [ho2.start, add_zero] at h1
    have := hwhere 0 hT
    omega
  have hmem : hit ∈ hs := by
    have : hit ∈ hs'.filter (fun h => decide (a ≤ h.startFreqIndex ∧ h.startFreqIndex < e)) :=
      List.mem_filter.mpr ⟨e2, by rw [e3]; simpa using hin0⟩
    rw [← f3] at this
    exact (List.mem_filter.mp this).1
  have hrun := (C117_search R24 R53 hz ar fltMin junk cc width so lt gt nsk dSk o ro op tiny
    zeroDrift j h T N X k bd bm hr hload).2 hs hsome f1
  have hsort := driftSearch_sorted f1
  refine ⟨_, touched hit, hrun, ?_, e3, e4, e5, ?_, ?_⟩
  · rw [filterHits_eq tiny zeroDrift hs hsort]
    exact List.mem_map.mpr ⟨hit, List.mem_filter.mpr ⟨hmem, by simpa using hacc⟩, rfl⟩
  · show hit.snr = _
    rw [e6, hsum]
  · intro hit' hh' g1 g2
    rw [filterHits_eq tiny zeroDrift hs hsort] at hh'
    obtain ⟨g, hg, rfl⟩ := List.mem_map.mp hh'
    have hg' := (List.mem_filter.mp hg).1
    have : g ∈ hs.filter (fun h => decide (a ≤ h.startFreqIndex ∧ h.startFreqIndex < e)) :=
      List.mem_filter.mpr ⟨hg', decide_eq_true (show a ≤ g.startFreqIndex ∧ g.startFreqIndex < e from ⟨g1, g2⟩)⟩
    rw [f3] at this
    exact e7 g (List.mem_filter.mp this).1

end

/-! ## Channels -/

section
open Bliss.Nd Bliss.Stat Bliss.Flag

/-- Noise of 1 and 2, a tone of 90 that starts in channel 18 and moves by one channel per time step, and
a signal of strength `v` that does the same from channel `p`. -/
def twoChan (p : Int) (v : ℚ) (t : Nat) (c : Int) : ℚ :=
  if c = 18 + t then 90 else if c = p + t then v else if (c + t) % 2 = 0 then 1 else 2

def twoRates : RateOptions := { low := -2, high := 3, step := 1 }

def tinyRate (x : Fl) : Bool := match x with | .fin q => decide (|q| < 1 / 1000000) | _ => false

/-- The search of such a channel, without flags and with noise power 3 and floor 1. -/
def twoHits (p : Int) (v : ℚ) : Option (List (Int × Int)) :=
  match driftSearch (nearestEven 24 (by norm_num)) (nearestEven 53 (by norm_num)) id ratArith
    (2 ^ (-126 : ℤ)) (fun _ => 0) ⟨.fin 0, .fin 1, .fin 0, .fin 1, 0⟩
    (denseInput 3 40 (twoChan p v) fun _ _ => 0) twoRates 3 1 ⟨.connectedComponents, 50, 3⟩ with
  | .ok l => some (l.map fun h => (h.startFreqIndex, h.rateIndex))
  | _ => none

-- a signal that starts in channel 33 does not change the tone's hit, whatever its strength; one that
-- starts in channel 20, near the tone, takes it over
example : twoHits 33 0 = some [(18, 4)] ∧ twoHits 33 900 = some [(33, 4), (18, 4)] ∧
    twoHits 20 900 = some [(20, 4)] := by decide +kernel

theorem twoRates_range {i : Nat} (hi : (i : Int) < (twoRates.high - twoRates.low).tdiv twoRates.step) :
    i < 5 := by
  have : (twoRates.high - twoRates.low).tdiv twoRates.step = 5 := by decide
  omega

theorem twoChan_low {p : Int} {v : ℚ} {t : Nat} {c : Int} (h1 : c ≠ 18 + t) (h2 : c ≠ p + t) :
    twoChan p v t c ≤ 2 := by
  unfold twoChan
  rw [if_neg h1, if_neg h2]
  split_ifs <;> norm_num

-- two channels that meet every hypothesis of `C148_hits_local`, in the range from 14 to 25
example :
    let X := twoChan 33 500
    let Y := twoChan 33 900
    (∀ Z, Z = X ∨ Z = Y → Holds (denseInput 3 40 Z fun _ _ => 0) Z fun _ _ => 0) ∧
      Defined twoRates 3 40 ∧ Sane (2 ^ (-126 : ℤ)) (50 : ℚ) ∧
      (∀ i : Nat, (i : Int) < (twoRates.high - twoRates.low).tdiv twoRates.step →
        |twoRates.low + i * twoRates.step| ≤ 2) ∧
      SameBand 3 X Y (fun _ _ => 0) (fun _ _ => 0) (14 - 2 * 2) (25 + 2 * 2) ∧ X 0 33 ≠ Y 0 33 ∧
      ∀ Z, Z = X ∨ Z = Y → QuietLines ratArith 3 1 50 3 40 twoRates Z (14 - 3) 14 ∧
        QuietLines ratArith 3 1 50 3 40 twoRates Z 25 (25 + 3) := by
  intro X Y
  have hS : ∀ i : Nat, (i : Int) < (twoRates.high - twoRates.low).tdiv twoRates.step →
      |twoRates.low + i * twoRates.step| ≤ 2 := fun i hi => by
    have := twoRates_range hi
    interval_cases i <;> decide
  refine ⟨fun Z _ => denseInput_holds _ _ _ _, ⟨by decide, by decide, by decide, fun i hi => ?_⟩,
    ?_, hS, ?_, by decide +kernel, fun Z hZ => ?_⟩
  · have := twoRates_range hi
    interval_cases i <;> decide
  · exact ⟨fun _ _ _ h1 h2 => lt_trans h1 h2, fun a => lt_irrefl a,
      fun v hv => lt_of_le_of_lt (by norm_num) hv, fun v hv => lt_trans (by norm_num) hv⟩
  · intro t ht c h1 h2
    refine ⟨?_, rfl⟩
    show twoChan 33 500 t c = twoChan 33 900 t c
    have h : c ≠ 33 + t := by omega
    simp only [twoChan, if_neg h]
  · have hlow : ∀ t : Nat, t < 3 → ∀ c : Int, c ≠ 18 + t → c ≠ 33 + t → Z t c ≤ 2 := by
      intro t _ c h1 h2
      rcases hZ with rfl | rfl <;> exact twoChan_low h1 h2
    have hlev : ∀ w : Int, 1 ≤ w → w ≤ max 1 2 →
        ((twoRates.desmear = false ∨ ∀ i : Nat,
          (i : Int) < (twoRates.high - twoRates.low).tdiv twoRates.step →
          |twoRates.low + i * twoRates.step| ≤ ((3 : Nat) : Int) - 1) → w = 1) →
        0 < driftNoise ratArith 3 (((3 : Nat) : Int) * w) ∧
          ((2 : ℚ) - 1) / driftNoise ratArith 3 (((3 : Nat) : Int) * w) ≤ 50 / 2 := by
      intro w _ _ hw
      obtain rfl := hw (Or.inr hS)
      decide +kernel
    exact ⟨QuietLines.of_level (by decide) hS (by norm_num)
        (fun t ht c _ _ h1 h2 => hlow t ht c (by omega) (by omega)) hlev,
      QuietLines.of_level (by decide) hS (by norm_num)
        (fun t ht c _ _ h1 h2 => hlow t ht c (by omega) (by omega)) hlev⟩

def twoMem (v : ℚ) : Heap (Val ℚ) where
  mem b i := if 0 ≤ i ∧ i < 120 then
      (if b = 0 then some (.num (twoChan 33 v (i / 40).toNat (i % 40)))
        else if b = 1 then some (.flag 0) else none)
    else none
  next := 2

theorem twoLoaded (v : ℚ) : Loaded (twoMem v) 3 40 (twoChan 33 v) 0 1 where
  apart := by decide
  dataIn := Nat.zero_lt_two
  maskIn := Nat.one_lt_two
  data := by
    intro i hi
    obtain ⟨t, ch, rfl, h1, h2, h3, h4⟩ := Bliss.Hit.valid2 hi
    have e : addr (dense 0 [((3 : Nat) : Int), ((40 : Nat) : Int)]).dims [t, ch] = 40 * t + ch := by
      simp [addr, dense, denseDims]
      try ring
    show (twoMem v).mem 0 _ = _
    rw [e]
    have e1 : (40 * t + ch) / 40 = t := by omega
    have e2 : (40 * t + ch) % 40 = ch := by omega
    have e3 : 0 ≤ 40 * t + ch ∧ 40 * t + ch < 120 := by omega
    simp only [twoMem, e3, e1, e2, onIdx]
    simp
  mask := by
    intro i hi
    obtain ⟨t, ch, rfl, h1, h2, h3, h4⟩ := Bliss.Hit.valid2 hi
    have e : addr (dense 1 [((3 : Nat) : Int), ((40 : Nat) : Int)]).dims [t, ch] = 40 * t + ch := by
      simp [addr, dense, denseDims]
      try ring
    show (twoMem v).mem 1 _ = _
    rw [e]
    have e3 : 0 ≤ 40 * t + ch ∧ 40 * t + ch < 120 := by omega
    simp [twoMem, e3]

def twoRun (v : ℚ) : Option (List (Int × Int)) :=
  match searchFlagged (nearestEven 24 (by norm_num)) (nearestEven 53 (by norm_num)) id ratArith
    (2 ^ (-126 : ℤ)) (fun _ => 0) ⟨.fin 0, .fin 1, .fin 0, .fin 1, 0⟩ (fun _ => 1) ratSk
    (fun x => decide (x < 1 / 20)) (fun x => decide (5 < x)) 1 2 (ieeeOps binSqrt)
    twoRates ⟨.connectedComponents, 50, 3⟩ tinyRate true
    (dense 0 [(3 : Nat), (40 : Nat)]) (dense 1 [(3 : Nat), (40 : Nat)]) (fun _ _ _ => .flag 0)
    (twoMem v) with
  | .ok l => some (l.map fun h => (h.startFreqIndex, h.rateIndex))
  | _ => none

-- a weak tone is reported beside one of ten times its strength
example : twoRun 900 = some [(18, 4), (33, 4)] := by decide +kernel

-- a channel and options that meet every hypothesis of the theorem about the tone
example :
    let X := twoChan 33 900
    let ch : Nat → Int := fun t => 18 + t
    let lt : ℚ → Bool := fun x => decide (x < 1 / 20)
    let l := clean 3 40 (flagsOf ratSk lt (fun x => decide (5 < x)) 1 2 1 3 40 X)
    let noise := driftNoise ratArith (powerOf (ieeeOps binSqrt) X l) 3
    let snr := fun v : ℚ => (v - floorOf (ieeeOps binSqrt) X l) / noise
    Loaded (twoMem 900) 3 40 X 0 1 ∧ FlagRange (fun _ => 1) 1 3 40 1 ∧ Defined twoRates 3 40 ∧
      (∀ i : Nat, (i : Int) < (twoRates.high - twoRates.low).tdiv twoRates.step →
        |twoRates.low + i * twoRates.step| ≤ 2) ∧
      ToneIn 3 40 X 18 2 ch 2 (14 - (2 * 2 + 3)) (25 + (2 * 2 + 3)) ∧
      (∀ t < 3, 14 + 2 * 2 ≤ ch t ∧ ch t < 25 - 2 * 2) ∧
      Away ratSk lt 1 2 1 3 40 X ch 2 ∧ (2 : Int) = twoRates.low + (4 : Nat) * twoRates.step ∧
      l ≠ [] ∧ 0 < noise ∧ 50 < snr ((∑ t ∈ Finset.range 3, X t (ch t)) / (3 : Nat)) ∧
      snr 2 ≤ 50 / 2 := by
  refine ⟨twoLoaded 900, ⟨by decide, rfl, by decide, by decide, by decide⟩,
    ⟨by decide, by decide, by decide, fun i hi => ?_⟩, fun i hi => ?_,
    ⟨⟨?_⟩, by decide, by decide, by norm_num, ?_, ?_⟩, ?_, ?_, by decide, ?_, ?_, ?_, ?_⟩
  · have := twoRates_range hi
    interval_cases i <;> decide
  · have := twoRates_range hi
    interval_cases i <;> decide
  · intro t ht
    interval_cases t <;> norm_num
  · intro t ht
    interval_cases t <;> norm_num [twoChan]
  · intro t ht c _ _ h1 h2 hne
    exact twoChan_low hne (by omega)
  · intro t ht
    dsimp only
    omega
  · intro t ht c hc
    dsimp only at hc
    rw [abs_le] at hc
    have h1 : 16 ≤ c := by omega
    have h2 : c ≤ 22 := by omega
    interval_cases c <;> decide +kernel
  all_goals decide +kernel

end

end Bliss.Hit
