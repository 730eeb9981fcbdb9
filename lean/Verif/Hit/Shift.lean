import Verif.Comp.Shift
import Verif.Hit.Local

/-!
# Hits do not depend on where in the band a signal lies, nor on how wide the band is (C149)
-/

namespace Bliss.Hit

open Bliss.Comp (Coord Grid Protohit Search findThresh SameMoved along moveHit)
open Bliss.Drift Bliss.Float

/-! ## Specification -/

section
variable {F : Type}

/-- The channels from `lo` to `hi` of the first spectrum, with their flags, are found `k` channels further
in the second. -/
def MovedBand (T : Nat) (X Y : Nat → Int → F) (Q R : Nat → Int → UInt8) (k lo hi : Int) : Prop :=
  ∀ t < T, ∀ c : Int, lo ≤ c → c < hi → X t c = Y t (c + k) ∧ Q t c = R t (c + k)

/-- The same hit, `k` channels further. Its frequency is that of the channel `k` channels further in the
second band. -/
structure MovedHit (ar : Arith F Fl) (cc cc' : Channel Fl) (k : Int) (h h' : Hit F Fl) : Prop where
  start : h'.startFreqIndex = h.startFreqIndex + k
  freq : ∃ m, h.startFreqMHz = ar.add cc.fch1 (ar.mul cc.foff (ar.ofInt m)) ∧
    h'.startFreqMHz = ar.add cc'.fch1 (ar.mul cc'.foff (ar.ofInt (m + k)))
  rate : h'.rateIndex = h.rateIndex ∧ h'.driftRate = h.driftRate
  strength : h'.power = h.power ∧ h'.snr = h.snr
  width : h'.binwidth = h.binwidth ∧ h'.bandwidth = h.bandwidth
  time : h'.startTime = h.startTime ∧ h'.duration = h.duration
  flags : h'.rfi = h.rfi

end

/-! ## Proof -/

theorem fits_widen {N N' T : Nat} {up : Bool} {span w : Int} {off : Nat → Int} (hN : N ≤ N')
    (h : Fits N T up span w off) : Fits N' T up span w off := by
  unfold Fits at h ⊢
  split
  · next hu =>
    rw [if_pos hu] at h
    intro t ht
    have := h t ht
    omega
  · next hu =>
    rw [if_neg hu] at h
    obtain ⟨h1, h2, h3⟩ := h
    refine ⟨h1, by omega, fun t ht => ?_⟩
    have := h3 t ht
    omega

/-- A line with room on both sides is not cut at the edges of the band. -/
theorem path_move {N N' T : Nat} {d : Int} {ε : ℚ} {off : Nat → Int} (hs : StraightPath d T ε off)
    {w : Int} (hw : w ≤ max 1 |d|) {c k : Int} (h1 : 2 * |d| ≤ c) (h2 : c + 2 * |d| < N)
    (h3 : 2 * |d| ≤ c + k) (h4 : c + k + 2 * |d| < N') :
    path N' T (decide (0 ≤ d)) d w.toNat off (c + k) =
      (path N T (decide (0 ≤ d)) d w.toNat off c).map fun s => (s.1, s.2 + k) := by
  unfold path
  rw [List.map_flatMap]
  refine List.flatMap_congr fun t ht => ?_
  rw [List.mem_range] at ht
  rw [List.map_filterMap]
  refine List.filterMap_congr fun i hi => ?_
  rw [List.mem_range] at hi
  have hin := hs.inside t ht
  have hwk : (i : Int) + 1 ≤ max 1 |d| := by omega
  unfold pathChannel
  by_cases hd : 0 ≤ d
  · simp only [hd, decide_true, if_true]
    rw [abs_of_nonneg hd] at *
    rw [min_eq_left hd, max_eq_right hd] at hin
    rw [if_pos (by omega), if_pos (by omega)]
    simp only [Option.map_some, Option.some.injEq, Prod.mk.injEq, true_and]
    omega
  · have hd' : d < 0 := by omega
    simp only [hd, decide_false, Bool.false_eq_true, if_false]
    rw [abs_of_neg hd'] at *
    rw [min_eq_right hd'.le, max_eq_left hd'.le] at hin
    rw [if_pos (by omega), if_pos (by omega)]
    simp only [Option.map_some, Option.some.injEq, Prod.mk.injEq, true_and]
    omega

section
variable {F : Type} [Zero F] [Add F] [Sub F] [Div F] [IntCast F] [LT F] [DecidableLT F] [OfNat F 2]

omit [Zero F] [Add F] [IntCast F] [LT F] [DecidableLT F] [OfNat F 2] in
theorem toHits_move {ar : Arith F Fl} {junk : Coord → Int} {cc cc' : Channel Fl}
    (hcc : cc'.foff = cc.foff ∧ cc'.tstart = cc.tstart ∧ cc'.tsamp = cc.tsamp)
    {p q : Plane F Fl} (h1 : p.rates = q.rates) (h2 : p.steps = q.steps) {floor : F} {k : Int}
    {cs : List (Protohit F)} {hs hs' : List (Hit F Fl)} (e : toHits ar junk cc p floor cs = .ok hs)
    (e' : toHits ar junk cc' q floor (cs.map (moveHit k)) = .ok hs') :
    List.Forall₂ (MovedHit ar cc cc' k) hs hs' := by
  induction cs generalizing hs hs' with
  | nil => cases e; cases e'; exact .nil
  | cons c cs ih =>
    rw [List.map_cons] at e'
    unfold toHits at e e'
    cases g1 : toHit ar junk cc p floor c with
    | throws x => rw [g1] at e; cases e
    | ub => rw [g1] at e; cases e
    | ok x =>
      cases g1' : toHit ar junk cc' q floor (moveHit k c) with
      | throws x => rw [g1'] at e'; cases e'
      | ub => rw [g1'] at e'; cases e'
      | ok x' =>
        rw [g1, Outcome.bind_ok] at e
        rw [g1', Outcome.bind_ok] at e'
        cases g2 : toHits ar junk cc p floor cs with
        | throws x => rw [g2] at e; cases e
        | ub => rw [g2] at e; cases e
        | ok xs =>
          cases g2' : toHits ar junk cc' q floor (cs.map (moveHit k)) with
          | throws x => rw [g2'] at e'; cases e'
          | ub => rw [g2'] at e'; cases e'
          | ok xs' =>
            rw [g2, Outcome.bind_ok] at e
            rw [g2', Outcome.bind_ok] at e'
            obtain rfl := Outcome.ok.inj e
            obtain rfl := Outcome.ok.inj e'
            refine .cons ?_ (ih g2 g2')
            unfold toHit at g1 g1'
            rw [show (moveHit k c).indexMax.1 = c.indexMax.1 from rfl,
              show (moveHit k c).noise = c.noise from rfl, ← h1] at g1'
            split at g1
            · next r noise hr hn =>
              rw [hr, hn] at g1'
              rw [← Outcome.ok.inj g1, ← Outcome.ok.inj g1']
              obtain ⟨c1, c2, c3⟩ := hcc
              refine ⟨rfl, ⟨c.indexCenter.2, rfl, rfl⟩, ⟨rfl, rfl⟩, ⟨rfl, rfl⟩, ⟨rfl, ?_⟩, ⟨?_, ?_⟩, rfl⟩
              · simp only [c1]; rfl
              · simp only [c2]
              · simp only [c3, h2]
            · cases g1

/-- The plane of a search and the lines its cells are the sums of. -/
theorem plane_cells {R24 : Rounding 24} {R53 : Rounding 53} {hz : Fl → Fl} {ro : RateOptions}
    {rates : List (Rate Fl)} {off : Nat → Nat → Int} {v : Input F} {Z : Nat → Int → F}
    {M : Nat → Int → UInt8} (hv : Holds v Z M) (hvw : v.specOffset = 0 ∧ v.rfiOffset = 0)
    (hcd : computeDrifts R24 hz v.timeSteps ro = .ok rates) (hne : rates ≠ [])
    (hofs : OffsetsAre (flOps R53) rates v.timeSteps off)
    (hfit : ∀ (i : Nat) (r : Rate Fl), rates[i]? = some r →
      Fits v.numChannels v.timeSteps ((flOps R53).nonneg r.slope) r.span r.desmear (off i) ∧
      (flOps R53).nonneg r.slope = decide (0 ≤ r.span)) :
    ∃ acc, integrateDrifts R24 R53 hz v ro = .ok (acc, rates) ∧
      ∀ (i : Nat) (r : Rate Fl), rates[i]? = some r → ∀ c : Int, 0 ≤ c → c < v.numChannels →
        let p := path v.numChannels v.timeSteps (decide (0 ≤ r.span)) r.span r.desmear.toNat (off i) c
        acc.plane (i * v.numChannels + c) =
          some (pathSum Z r.desmear p / ((v.timeSteps : Int) : F)) ∧
        ∃ l h o', acc.lowsk (i * v.numChannels + c) = some l ∧
          acc.highsk (i * v.numChannels + c) = some h ∧
          acc.rolloff (i * v.numChannels + c) = some o' ∧
          l.toNat = pathFlags M 2 p % 256 ∧ h.toNat = pathFlags M 4 p % 256 ∧
          o'.toNat = pathFlags M 1 p % 256 := by
  obtain ⟨acc, ha, hcell⟩ := C01_drift_plane_cell hv hvw hofs fun i r hr => (hfit i r hr).1
  obtain ⟨a', ha', hcount⟩ := C04_counters_mod_256 hv hvw hofs fun i r hr => (hfit i r hr).1
  rw [ha] at ha'
  obtain rfl := Outcome.ok.inj ha'
  refine ⟨acc, ?_, ?_⟩
  · unfold integrateDrifts
    rw [hcd]
    simp only [Outcome.bind_ok]
    cases hrs : rates with
    | nil => exact absurd hrs hne
    | cons r rs =>
      rw [hrs] at ha
      simp only [ha]
      rfl
  · intro i r hr c h0 hc
    dsimp only
    rw [← (hfit i r hr).2]
    exact ⟨hcell i r hr c h0 hc, hcount i r hr c h0 hc⟩

/-- **C149.** Search two spectra of any widths with the same options and the same noise estimate, in any
arithmetic. Suppose a range of channels of the first, with twice the fastest drift to either side, and its
flags are found somewhere in the second, `k` channels further, and in both, no line that starts within the
neighbour distance outside the range is above half the threshold. Then both searches return, and the hits
that start in the range are the same, `k` channels further: in the same order, with the same drift, SNR,
power, width, times and flags, and the frequency of the channel they are in. -/
theorem C149_hits_move (R24 : Rounding 24) (R53 : Rounding 53) (hz : Fl → Fl) (ar : Arith F Fl)
    (fltMin : F) (junk : Coord → Int) (cc cc' : Channel Fl)
    (hcc : cc'.foff = cc.foff ∧ cc'.tstart = cc.tstart ∧ cc'.tsamp = cc.tsamp) {inp inp' : Input F}
    {X Y : Nat → Int → F} {Q R : Nat → Int → UInt8} (hin : Holds inp X Q) (hin' : Holds inp' Y R)
    (hview : inp.specOffset = 0 ∧ inp.rfiOffset = 0) (hview' : inp'.specOffset = 0 ∧ inp'.rfiOffset = 0)
    {T N N' : Nat} (hsize : inp.timeSteps = T ∧ inp.numChannels = N)
    (hsize' : inp'.timeSteps = T ∧ inp'.numChannels = N') {ro : RateOptions} (hd : Defined ro T N)
    (hd' : Defined ro T N') (noisePower floor : F) (o : Options F)
    (hm : o.method = .connectedComponents) (hs : Sane fltMin o.thr) {S : Int}
    (hS : ∀ i : Nat, (i : Int) < (ro.high - ro.low).tdiv ro.step → |ro.low + i * ro.step| ≤ S)
    {k a b : Int} (hroom : 2 * S ≤ a ∧ b + 2 * S ≤ N) (hroom' : 2 * S ≤ a + k ∧ b + k + 2 * S ≤ N')
    (hsame : MovedBand T X Y Q R k (a - 2 * S) (b + 2 * S))
    (hquiet : QuietLines ar noisePower floor o.thr T N ro X (a - o.dist) a ∧
      QuietLines ar noisePower floor o.thr T N ro X b (b + o.dist))
    (hquiet' : QuietLines ar noisePower floor o.thr T N' ro Y (a + k - o.dist) (a + k) ∧
      QuietLines ar noisePower floor o.thr T N' ro Y (b + k) (b + k + o.dist)) :
    ∃ hits hits', driftSearch R24 R53 hz ar fltMin junk cc inp ro noisePower floor o = .ok hits ∧
      driftSearch R24 R53 hz ar fltMin junk cc' inp' ro noisePower floor o = .ok hits' ∧
      List.Forall₂ (MovedHit ar cc cc' k)
        (hits.filter fun h => decide (a ≤ h.startFreqIndex ∧ h.startFreqIndex < b))
        (hits'.filter fun h => decide (a + k ≤ h.startFreqIndex ∧ h.startFreqIndex < b + k)) := by
  obtain ⟨rfl, rfl⟩ := hsize
  obtain ⟨e1, rfl⟩ := hsize'
  obtain ⟨rates, off, hcd, hlen, hofs, hall⟩ := driftSetup R24 R53 hz
    (N := min inp.numChannels inp'.numChannels) hd.steps.1 hd.steps.2 hd.step hd.some
    (fun i hi => ⟨(hd.range i hi).1, by
      have h1 := (hd.range i hi).2
      have h2 := (hd'.range i hi).2
      push_cast
      exact le_min h1 h2⟩)
  have hne : rates ≠ [] := by
    rintro rfl
    have := hd.some
    simp at hlen
    omega
  have hS0 : 0 ≤ S := (abs_nonneg _).trans (hS 0 (by simpa using hd.some))
  obtain ⟨A, A1, A2⟩ := plane_cells hin hview hcd hne hofs fun i r hr =>
    ⟨fits_widen (min_le_left _ _) (hall i r hr).1, (hall i r hr).2.1⟩
  obtain ⟨B, B1, B2⟩ := plane_cells (R24 := R24) (R53 := R53) (hz := hz) (ro := ro) hin' hview'
    (by rw [e1]; exact hcd) hne (by rw [e1]; exact hofs) fun i r hr => by
      rw [e1]; exact ⟨fits_widen (min_le_right _ _) (hall i r hr).1, (hall i r hr).2.1⟩
  rw [e1] at B2
  -- a cell of a plane
  have hat : ∀ (N : Nat) (c : Coord), (⟨rates.length, N⟩ : Grid).has c → ∃ (i : Nat) (r : Rate Fl),
      c.1 = i ∧ rates[i]? = some r ∧ (i : Int) < (ro.high - ro.low).tdiv ro.step ∧
      r.span = ro.low + i * ro.step ∧ 1 ≤ r.desmear ∧ r.desmear ≤ max 1 |ro.low + i * ro.step| ∧
      (ro.desmear = false ∨ |ro.low + i * ro.step| ≤ (inp.timeSteps : Int) - 1 → r.desmear = 1) ∧
      StraightPath (ro.low + i * ro.step) inp.timeSteps (2 ^ (-23 : ℤ) + 2 ^ (-51 : ℤ)) (off i) ∧
      0 ≤ c.2 ∧ c.2 < N := by
    rintro N ⟨x, c⟩ ⟨x1, x2, x3, x4⟩
    dsimp only at x1 x2 x3 x4
    obtain ⟨i, rfl⟩ : ∃ i : Nat, x = i := ⟨x.toNat, (Int.toNat_of_nonneg x1).symm⟩
    have hil : i < rates.length := by exact_mod_cast x2
    have hget := List.getElem?_eq_getElem hil
    obtain ⟨-, -, -, g4, -, g6⟩ := hall i _ hget
    have hil' : (i : Int) < (ro.high - ro.low).tdiv ro.step := by omega
    have hsm := (hd.range i hil').1
    obtain ⟨w1, w2, w3⟩ := rates_desmear_le hcd hd.steps.1 hd.steps.2 hget (by omega)
    rw [g4] at g6
    exact ⟨i, _, rfl, hget, hil', g4, w1, w2, w3, g6, x3, x4⟩
  have hR : SameMoved (toSearch ar (planeOf inp A rates) noisePower floor o)
      (toSearch ar (planeOf inp' B rates) noisePower floor o) k a b := by
    refine ⟨rfl, ⟨by omega, ?_⟩, ⟨by omega, ?_⟩, rfl, ?_, rfl, rfl, ?_, ?_, ?_, ?_⟩
    · show b ≤ inp.numChannels
      omega
    · show b + k ≤ inp'.numChannels
      omega
    · show (toSearch ar (planeOf inp A rates) noisePower floor o).noise =
        (toSearch ar (planeOf inp' B rates) noisePower floor o).noise
      simp only [toSearch, planeOf, e1]
    · intro c hc c1 c2
      obtain ⟨i, r, x1, x2, x3, x4, x5, x6, x7, x8, x9, x10⟩ := hat _ c hc
      have y3 := hS i x3
      show (A.plane (c.1 * inp.numChannels + c.2)).getD 0 =
        (B.plane (c.1 * inp'.numChannels + (c.2 + k))).getD 0
      rw [x1, (A2 i r x2 c.2 x9 x10).1, (B2 i r x2 (c.2 + k) (by omega) (by omega)).1,
        Option.getD_some, Option.getD_some, x4,
        path_move (N := inp.numChannels) x8 x6 (by omega) (by omega) (by omega) (by omega)]
      congr 1
      unfold pathSum
      rw [List.foldl_map]
      refine List.foldl_ext _ _ _ fun acc s hsm => ?_
      obtain ⟨y1, y2, -⟩ := mem_path_near x8 x6 x9 x10 hsm
      rw [abs_le] at y2
      rw [(hsame s.1 y1 s.2 (by omega) (by omega)).1]
    · intro c hc c1 c2
      obtain ⟨i, r, x1, x2, x3, x4, x5, x6, x7, x8, x9, x10⟩ := hat _ c hc
      have y3 := hS i x3
      obtain ⟨-, l, h, o', q1, q2, q3, q4, q5, q6⟩ := A2 i r x2 c.2 x9 x10
      obtain ⟨-, l', h', o'', p1, p2, p3, p4, p5, p6⟩ := B2 i r x2 (c.2 + k) (by omega) (by omega)
      have hfl : ∀ f : UInt8, pathFlags Q f (path inp.numChannels inp.timeSteps (decide (0 ≤ r.span))
          r.span r.desmear.toNat (off i) c.2) = pathFlags R f (path inp'.numChannels inp.timeSteps
          (decide (0 ≤ r.span)) r.span r.desmear.toNat (off i) (c.2 + k)) := by
        intro f
        rw [x4, path_move (N := inp.numChannels) x8 x6 (by omega) (by omega) (by omega) (by omega)]
        unfold pathFlags
        rw [List.countP_map]
        refine List.countP_congr fun s hsm => ?_
        obtain ⟨y1, y2, -⟩ := mem_path_near x8 x6 x9 x10 hsm
        rw [abs_le] at y2
        simp only [Function.comp_apply]
        rw [(hsame s.1 y1 s.2 (by omega) (by omega)).2]
      show (((A.lowsk (c.1 * inp.numChannels + c.2)).getD 0).toNat,
        ((A.highsk (c.1 * inp.numChannels + c.2)).getD 0).toNat,
        ((A.rolloff (c.1 * inp.numChannels + c.2)).getD 0).toNat) =
        (((B.lowsk (c.1 * inp'.numChannels + (c.2 + k))).getD 0).toNat,
        ((B.highsk (c.1 * inp'.numChannels + (c.2 + k))).getD 0).toNat,
        ((B.rolloff (c.1 * inp'.numChannels + (c.2 + k))).getD 0).toNat)
      rw [x1, q1, q2, q3, p1, p2, p3]
      simp only [Option.getD_some]
      rw [q4, q5, q6, p4, p5, p6, hfl 2, hfl 4, hfl 1]
    · intro c hc hgap
      obtain ⟨i, r, x1, x2, x3, x4, x5, x6, x7, x8, x9, x10⟩ := hat _ c hc
      have hcell := snr_cell (ar := ar) (noisePower := noisePower) (floor := floor) (o := o) x2
        (A2 i r x2 c.2 x9 x10).1
      rw [x4] at hcell
      have : c = ((i : Int), c.2) := by rw [← x1]
      rw [this, hcell]
      rcases hgap with ⟨h1, h2⟩ | ⟨h1, h2⟩
      · exact hquiet.1 i x3 c.2 x9 x10 h1 h2 _ _ x5 x6 x7 x8
      · exact hquiet.2 i x3 c.2 x9 x10 h1 h2 _ _ x5 x6 x7 x8
    · intro c hc hgap
      obtain ⟨i, r, x1, x2, x3, x4, x5, x6, x7, x8, x9, x10⟩ := hat _ c hc
      have hcell := snr_cell (ar := ar) (noisePower := noisePower) (floor := floor) (o := o) x2
        (B2 i r x2 c.2 x9 x10).1
      rw [x4, e1] at hcell
      have : c = ((i : Int), c.2) := by rw [← x1]
      rw [this, hcell]
      rcases hgap with ⟨h1, h2⟩ | ⟨h1, h2⟩
      · exact hquiet'.1 i x3 c.2 x9 x10 h1 h2 _ _ x5 x6 x7 x8
      · exact hquiet'.2 i x3 c.2 x9 x10 h1 h2 _ _ x5 x6 x7 x8
  obtain ⟨cs, ds, f1, f2, f3⟩ := Comp.findThresh_move hR fltMin hs.half hs.normal
  obtain ⟨cs', hs1, k1, k2, -⟩ := hitSearch_covers ar fltMin junk cc (planeOf inp A rates)
    noisePower floor o hm hs.trans hs.irrefl (by simp [planeOf]) hs.half hs.normal
  obtain ⟨ds', hs2, m1, m2, -⟩ := hitSearch_covers ar fltMin junk cc' (planeOf inp' B rates)
    noisePower floor o hm hs.trans hs.irrefl (by simp [planeOf]) hs.half hs.normal
  rw [f1] at k1
  obtain rfl := Outcome.ok.inj k1
  rw [f2] at m1
  obtain rfl := Outcome.ok.inj m1
  have t1 : toHits ar junk cc (planeOf inp A rates) floor cs = .ok hs1 := by
    have := k2
    unfold hitSearch protohitSearch at this
    rw [if_neg (by simp [planeOf]), hm] at this
    simp only [f1, Outcome.bind_ok] at this
    exact this
  have t2 : toHits ar junk cc' (planeOf inp' B rates) floor ds = .ok hs2 := by
    have := m2
    unfold hitSearch protohitSearch at this
    rw [if_neg (by simp [planeOf]), hm] at this
    simp only [f2, Outcome.bind_ok] at this
    exact this
  refine ⟨hs1, hs2, ?_, ?_, ?_⟩
  · simp only [driftSearch, A1, Outcome.bind_ok]; exact k2
  · simp only [driftSearch, B1, Outcome.bind_ok]; exact m2
  · have u2 := toHits_filter (a + k) (b + k) t2
    rw [← f3] at u2
    exact toHits_move hcc (p := planeOf inp A rates) (q := planeOf inp' B rates) rfl
      (by simp [planeOf, e1]) (toHits_filter a b t1) u2

end

/-! ## Channels -/

/-- The channels from 7 on of a channel with a tone and a stronger signal (`twoChan`). -/
def cutChan (v : ℚ) (t : Nat) (c : Int) : ℚ := twoChan 33 v t (c + 7)

def cutHits (N : Nat) (v : ℚ) : Option (List (Int × Int)) :=
  match driftSearch (nearestEven 24 (by norm_num)) (nearestEven 53 (by norm_num)) id ratArith
    (2 ^ (-126 : ℤ)) (fun _ => 0) ⟨.fin 7, .fin 1, .fin 0, .fin 1, 0⟩
    (denseInput 3 N (cutChan v) fun _ _ => 0) twoRates 3 1 ⟨.connectedComponents, 50, 3⟩ with
  | .ok l => some (l.map fun h => (h.startFreqIndex, h.rateIndex))
  | _ => none

-- the tone of `twoChan` is found in the part of the band it is in; a part that cuts it off misses it
example : cutHits 24 900 = some [(11, 4)] ∧ cutHits 12 900 = some [] := by decide +kernel

-- the whole channel and its part meet every hypothesis, in the range from 14 to 25 of the whole
example :
    let X := twoChan 33 900
    let Y := cutChan 900
    Holds (denseInput 3 40 X fun _ _ => 0) X (fun _ _ => 0) ∧
      Holds (denseInput 3 24 Y fun _ _ => 0) Y (fun _ _ => 0) ∧
      Defined twoRates 3 40 ∧ Defined twoRates 3 24 ∧ Sane (2 ^ (-126 : ℤ)) (50 : ℚ) ∧
      (∀ i : Nat, (i : Int) < (twoRates.high - twoRates.low).tdiv twoRates.step →
        |twoRates.low + i * twoRates.step| ≤ 2) ∧
      (2 * 2 ≤ (14 : Int) ∧ (25 : Int) + 2 * 2 ≤ (40 : Nat)) ∧
      (2 * 2 ≤ (14 : Int) + -7 ∧ (25 : Int) + -7 + 2 * 2 ≤ (24 : Nat)) ∧
      MovedBand 3 X Y (fun _ _ => 0) (fun _ _ => 0) (-7) (14 - 2 * 2) (25 + 2 * 2) ∧
      (QuietLines ratArith 3 1 50 3 40 twoRates X (14 - 3) 14 ∧
        QuietLines ratArith 3 1 50 3 40 twoRates X 25 (25 + 3)) ∧
      QuietLines ratArith 3 1 50 3 24 twoRates Y (14 + -7 - 3) (14 + -7) ∧
        QuietLines ratArith 3 1 50 3 24 twoRates Y (25 + -7) (25 + -7 + 3) := by
  intro X Y
  have hS : ∀ i : Nat, (i : Int) < (twoRates.high - twoRates.low).tdiv twoRates.step →
      |twoRates.low + i * twoRates.step| ≤ 2 := fun i hi => by
    have := twoRates_range hi
    interval_cases i <;> decide
  have hlev : ∀ w : Int, 1 ≤ w → w ≤ max 1 2 →
      ((twoRates.desmear = false ∨ ∀ i : Nat,
        (i : Int) < (twoRates.high - twoRates.low).tdiv twoRates.step →
        |twoRates.low + i * twoRates.step| ≤ ((3 : Nat) : Int) - 1) → w = 1) →
      0 < driftNoise ratArith 3 (((3 : Nat) : Int) * w) ∧
        ((2 : ℚ) - 1) / driftNoise ratArith 3 (((3 : Nat) : Int) * w) ≤ 50 / 2 := by
    intro w _ _ hw
    obtain rfl := hw (Or.inr hS)
    decide +kernel
  refine ⟨denseInput_holds _ _ _ _, denseInput_holds _ _ _ _,
    ⟨by decide, by decide, by decide, fun i hi => ?_⟩, ⟨by decide, by decide, by decide, fun i hi => ?_⟩,
    ?_, hS, by decide, by decide, ?_, ⟨?_, ?_⟩, ?_, ?_⟩
  · have := twoRates_range hi
    interval_cases i <;> decide
  · have := twoRates_range hi
    interval_cases i <;> decide
  · exact ⟨fun _ _ _ h1 h2 => lt_trans h1 h2, fun a => lt_irrefl a,
      fun v hv => lt_of_le_of_lt (by norm_num) hv, fun v hv => lt_trans (by norm_num) hv⟩
  · intro t _ c _ _
    refine ⟨?_, rfl⟩
    show twoChan 33 900 t c = twoChan 33 900 t (c + -7 + 7)
    congr 1
    omega
  · exact QuietLines.of_level (by decide) hS (by norm_num)
      (fun t ht c _ _ h1 h2 => twoChan_low (by omega) (by omega)) hlev
  · exact QuietLines.of_level (by decide) hS (by norm_num)
      (fun t ht c _ _ h1 h2 => twoChan_low (by omega) (by omega)) hlev
  · exact QuietLines.of_level (by decide) hS (by norm_num)
      (fun t ht c _ _ h1 h2 => twoChan_low (by omega) (by omega)) hlev
  · exact QuietLines.of_level (by decide) hS (by norm_num)
      (fun t ht c _ _ h1 h2 => twoChan_low (by omega) (by omega)) hlev

end Bliss.Hit
