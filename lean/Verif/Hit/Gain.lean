import Verif.Hit.Recover

/-!
# The unit of the data does not matter (C116)

`integrate_drifts` and `hit_search` on the same spectra in another unit: every sample, the noise floor
and the noise power multiplied by a positive constant.
-/

namespace Bliss.Hit

open Bliss.Comp (Coord Grid Protohit Search findThresh findMaxima threshWhile threshScan expandDown
  expandUp innerNbh nbhLoop mkMaximum maximaScan finishHit freshHit l1Offsets l1Rows put shift)
open Bliss.Drift Bliss.Float

section
variable {F D : Type} [Zero F] [Add F] [Sub F] [Div F] [IntCast F] [LT F]

/-- A change of unit of the values. Multiplying by a positive constant is one in exact arithmetic
(`scaling`); multiplying by a power of two is one in binary floating point as long as nothing
overflows or becomes subnormal. -/
structure Gain (g : F → F) : Prop where
  zero : g 0 = 0
  add : ∀ a b, g (a + b) = g a + g b
  div : ∀ (a : F) (n : Int), g (a / (n : F)) = g a / (n : F)
  lt : ∀ a b, g a < g b ↔ a < b
  ratio : ∀ a b n, (g a - g b) / g n = (a - b) / n

/-- The conversions to double respect the change of unit; `gD` is the change of unit on doubles. -/
structure GainD (ar : Arith F D) (g : F → F) (gD : D → D) : Prop where
  noise : ∀ p s, ar.toF (ar.div (ar.toD (g p)) s) = g (ar.toF (ar.div (ar.toD p) s))
  power : ∀ a b, ar.toD (g a - g b) = gD (ar.toD (a - b))

end

/-- The spectra in another unit; the mask stays. -/
def inUnit {F : Type} (g : F → F) (inp : Input F) : Input F :=
  { inp with spec := fun i => (inp.spec i).map g }

/-- The hit as reported in another unit: only the power differs. -/
def Hit.inUnit {F D : Type} (gD : D → D) (h : Hit F D) : Hit F D := { h with power := gD h.power }

/-! ## Integration -/

theorem map_bind' {α β γ : Type} (φ : β → γ) (x : Outcome α) (f : α → Outcome β) :
    φ <$> (x >>= f) = x >>= fun a => φ <$> f a := by cases x <;> rfl

theorem bind_map' {α β γ : Type} (φ : α → β) (x : Outcome α) (f : β → Outcome γ) :
    (φ <$> x) >>= f = x >>= fun a => f (φ a) := by cases x <;> rfl

theorem forLoop_map {σ : Type} (φ : σ → σ) {f f' : Nat → σ → Outcome σ}
    (h : ∀ i x, f' i (φ x) = φ <$> f i x) (n : Nat) (x : σ) :
    forLoop n f' (φ x) = φ <$> forLoop n f x := by
  induction n with
  | zero => rfl
  | succ n ih => rw [forLoop_succ, forLoop_succ, ih, bind_map', map_bind']; simp only [h]

section
variable {F : Type} [Zero F] [Add F] [Sub F] [Div F] [IntCast F] [LT F]

/-- The plane in another unit. -/
def gainAcc (g : F → F) (a : Acc F) : Acc F := { a with plane := fun i => (a.plane i).map g }

omit [Zero F] [Add F] [Sub F] [Div F] [IntCast F] [LT F] in
theorem load_map (g : F → F) (b : Buf F) (i : Int) :
    Buf.load (fun i => (b i).map g) i = g <$> b.load i := by
  unfold Buf.load
  beta_reduce
  cases b i <;> rfl

omit [Zero F] [Add F] [Sub F] [Div F] [IntCast F] [LT F] in
theorem store_map (g : F → F) (b : Buf F) (i : Int) (x : F) :
    Buf.store (fun i => (b i).map g) i (g x) =
      (fun b' : Buf F => fun i => (b' i).map g) <$> b.store i x := by
  unfold Buf.store
  beta_reduce
  cases hb : b i with
  | none => rfl
  | some y =>
    show Outcome.ok _ = Outcome.ok _
    congr 1
    funext j
    by_cases hj : j = i <;> simp [hj]

theorem channelBody_gain {g : F → F} (hg : Gain g) (inp : Input F) (w : Int) (st : Acc F × Ptrs) :
    channelBody (inUnit g inp) w (gainAcc g st.1, st.2) =
      (fun st : Acc F × Ptrs => (gainAcc g st.1, st.2)) <$> channelBody inp w st := by
  obtain ⟨a, p⟩ := st
  simp only [channelBody, inUnit, gainAcc, load_map, bind_map', map_bind', ← hg.div, ← hg.add,
    store_map]
  rfl

theorem addRange_gain {g : F → F} (hg : Gain g) (inp : Input F) (w : Int) (di t : Nat)
    (s e q : Int) (a : Acc F) :
    addRange (inUnit g inp) w di t s e q (gainAcc g a) = gainAcc g <$> addRange inp w di t s e q a := by
  unfold addRange
  simp only [map_bind']
  have := forLoop_map (fun st : Acc F × Ptrs => (gainAcc g st.1, st.2))
    (f := fun _ st => channelBody inp w st) (f' := fun _ st => channelBody (inUnit g inp) w st)
    (fun _ st => channelBody_gain hg inp w st) (tripCount (e - s))
    (a, { plane := (di : Int) * inp.numChannels + s, spec := t * inp.specStride0 + q * inp.specStride1,
          lowsk := (di : Int) * inp.numChannels + s, highsk := (di : Int) * inp.numChannels + s,
          rolloff := (di : Int) * inp.numChannels + s,
          rfi := t * inp.rfiStride0 + q * inp.rfiStride1 })
  simp only [inUnit] at this ⊢
  rw [this, bind_map']
  rfl

theorem rateBody_gain {g : F → F} (hg : Gain g) (ops : SlopeOps Fl) (inp : Input F)
    (rates : List (Rate Fl)) (i : Nat) (a : Acc F) :
    rateBody ops (inUnit g inp) rates i (gainAcc g a) = gainAcc g <$> rateBody ops inp rates i a := by
  unfold rateBody
  cases rates[i]? with
  | none => rfl
  | some r =>
    simp only [driftBody]
    refine forLoop_map (gainAcc g) (fun t a => ?_) _ a
    unfold timeBody
    rw [map_bind']
    cases ops.offAt r.slope t with
    | throws e => rfl
    | ub => rfl
    | ok off =>
      simp only [Outcome.bind_ok]
      refine forLoop_map (gainAcc g) (fun k a => ?_) _ a
      simp only [desmearBody, show (inUnit g inp).numChannels = inp.numChannels from rfl]
      split
      · exact addRange_gain hg ..
      · split <;> exact addRange_gain hg ..

theorem integrateCpu_gain {g : F → F} (hg : Gain g) (ops : SlopeOps Fl) (inp : Input F)
    (rates : List (Rate Fl)) :
    integrateCpu ops (inUnit g inp) rates = gainAcc g <$> integrateCpu ops inp rates := by
  unfold integrateCpu
  have h0 : (initAcc rates.length (inUnit g inp).numChannels : Acc F) =
      gainAcc g (initAcc rates.length inp.numChannels) := by
    simp only [initAcc, gainAcc, inUnit, Acc.mk.injEq, and_true]
    funext i
    simp only [Buf.ofFn]
    split <;> simp [hg.zero]
  rw [h0, forLoop_map (gainAcc g) (fun i a => rateBody_gain hg ops inp rates i a), bind_map', map_bind']
  congr 1
  funext a
  show Outcome.ok _ = Outcome.ok _
  simp only [gainAcc, inUnit]
  congr 2
  funext j
  cases a.plane j with
  | none => rfl
  | some x => simp [hg.div]

theorem integrateDrifts_gain {g : F → F} (hg : Gain g) (R24 : Rounding 24) (R53 : Rounding 53)
    (hz : Fl → Fl) (inp : Input F) (ro : RateOptions) :
    integrateDrifts R24 R53 hz (inUnit g inp) ro =
      (fun r : Acc F × List (Rate Fl) => (gainAcc g r.1, r.2)) <$>
        integrateDrifts R24 R53 hz inp ro := by
  unfold integrateDrifts
  rw [map_bind']
  simp only [show (inUnit g inp).timeSteps = inp.timeSteps from rfl]
  congr 1
  funext rates
  cases rates with
  | nil => rfl
  | cons r rs =>
    simp only []
    rw [integrateCpu_gain hg, bind_map', map_bind']
    rfl

end

/-! ## Search -/

section
variable {F : Type} [Zero F] [Add F] [Sub F] [Div F] [IntCast F] [LT F] [DecidableLT F] [OfNat F 2]

/-- The search in another unit; the threshold is a ratio and stays. -/
def gainSearch (g : F → F) (s : Search F) : Search F :=
  { s with val := fun c => g (s.val c), floor := g s.floor, noise := fun d => g (s.noise d) }

/-- The protohit in another unit. -/
def gainProto (g : F → F) (p : Protohit F) : Protohit F :=
  { p with maxIntegration := g p.maxIntegration, noise := p.noise.map g }

omit [DecidableLT F] [OfNat F 2] in
theorem snr_gain {g : F → F} (hg : Gain g) (s : Search F) (c : Coord) :
    (gainSearch g s).snr c = s.snr c := hg.ratio _ _ _

omit [OfNat F 2] in
theorem add_gain {g : F → F} (hg : Gain g) (s : Search F) (seed : Coord) (p : Protohit F) (c : Coord) :
    (gainSearch g s).add seed (gainProto g p) c = gainProto g (s.add seed p c) := by
  simp only [Search.add, Search.track, snr_gain hg]
  by_cases h : p.snr < s.snr c
  · simp only [gainProto, h, if_true]; rfl
  · simp only [gainProto, h, if_false]

theorem threshWhile_gain {g : F → F} (hg : Gain g) (s : Search F) (seed : Coord) (fuel : Nat)
    (v : Coord → Nat) (q : List Coord) (p : Protohit F) :
    threshWhile (gainSearch g s) seed fuel v q (gainProto g p) =
      (fun r : (Coord → Nat) × Protohit F => (r.1, gainProto g r.2)) <$> threshWhile s seed fuel v q p := by
  induction fuel generalizing v q p with
  | zero => cases q <;> rfl
  | succ n ih =>
    cases q with
    | nil => rfl
    | cons c q =>
      simp only [threshWhile, map_bind', show (gainSearch g s).grid = s.grid from rfl,
        show (gainSearch g s).thr = s.thr from rfl, show (gainSearch g s).dist = s.dist from rfl,
        snr_gain hg, add_gain hg, ih]
      congr 1
      funext x
      split
      · split <;> rfl
      · rfl

omit [Zero F] [Add F] [Sub F] [Div F] [IntCast F] [LT F] [DecidableLT F] [OfNat F 2] in
theorem finishHit_gain (g : F → F) (p : Protohit F) : finishHit (gainProto g p) = gainProto g (finishHit p) := rfl

theorem threshScan_gain {g : F → F} (hg : Gain g) (s : Search F) (fltMin : F) (n : Nat) (c : Coord)
    (v : Coord → Nat) (l : List (Protohit F)) :
    threshScan (gainSearch g s) fltMin n c v (l.map (gainProto g)) =
      List.map (gainProto g) <$> threshScan s fltMin n c v l := by
  induction n generalizing c v l with
  | zero => rfl
  | succ n ih =>
    have hf : (freshHit fltMin : Protohit F) = gainProto g (freshHit fltMin) := by
      simp [freshHit, gainProto, hg.zero]
    simp only [threshScan, map_bind', show (gainSearch g s).grid = s.grid from rfl,
      show (gainSearch g s).thr = s.thr from rfl, show (gainSearch g s).dist = s.dist from rfl,
      snr_gain hg]
    congr 1
    funext x
    split
    · conv_lhs => rw [hf]
      rw [threshWhile_gain hg, bind_map', map_bind']
      congr 1
      funext r
      have := ih (s.grid.next c) r.1 (l ++ [finishHit r.2])
      rw [List.map_append] at this
      exact this
    · exact ih ..

theorem expandDown_gain {g : F → F} (hg : Gain g) (s : Search F) (d : Int) (n : Nat) (e : F)
    (v : Coord → Nat) : expandDown (gainSearch g s) d n (g e) v = expandDown s d n e v := by
  induction n generalizing e v with
  | zero => rfl
  | succ n ih => simp only [expandDown, gainSearch, hg.ratio, hg.lt] at ih ⊢; simp only [ih]

theorem expandUp_gain {g : F → F} (hg : Gain g) (s : Search F) (d : Int) (n : Nat) (f : Int) (e : F)
    (v : Coord → Nat) : expandUp (gainSearch g s) d n f (g e) v = expandUp s d n f e v := by
  induction n generalizing f e v with
  | zero => rfl
  | succ n ih => simp only [expandUp, gainSearch, hg.ratio, hg.lt] at ih ⊢; simp only [ih]

theorem innerNbh_gain {g : F → F} (hg : Gain g) (s : Search F) (c : Coord) (l : List Coord)
    (v : Coord → Nat) : innerNbh (gainSearch g s) c l v = innerNbh s c l v := by
  induction l generalizing v with
  | nil => rfl
  | cons o os ih =>
    simp only [innerNbh, snr_gain hg, show (gainSearch g s).grid = s.grid from rfl, ih]

theorem nbhLoop_gain {g : F → F} (hg : Gain g) (s : Search F) (c : Coord) (l : List (List Coord))
    (v : Coord → Nat) (b : Bool) : nbhLoop (gainSearch g s) c l v b = nbhLoop s c l v b := by
  induction l generalizing v b with
  | nil => rfl
  | cons r rs ih => simp only [nbhLoop, innerNbh_gain hg, ih]

theorem mkMaximum_gain {g : F → F} (hg : Gain g) (s : Search F) (c : Coord) (v : Coord → Nat) :
    mkMaximum (gainSearch g s) c v = (gainProto g (mkMaximum s c v).1, (mkMaximum s c v).2) := by
  simp only [mkMaximum, show (gainSearch g s).val c = g (s.val c) from rfl, expandDown_gain hg,
    expandUp_gain hg, show (gainSearch g s).grid = s.grid from rfl, snr_gain hg]
  rfl

theorem maximaScan_gain {g : F → F} (hg : Gain g) (s : Search F) (n : Nat) (c : Coord)
    (v : Coord → Nat) (l : List (Protohit F)) :
    maximaScan (gainSearch g s) n c v (l.map (gainProto g)) =
      List.map (gainProto g) <$> maximaScan s n c v l := by
  induction n generalizing c v l with
  | zero => rfl
  | succ n ih =>
    simp only [maximaScan, map_bind', show (gainSearch g s).grid = s.grid from rfl,
      show (gainSearch g s).thr = s.thr from rfl, show (gainSearch g s).dist = s.dist from rfl,
      snr_gain hg, nbhLoop_gain hg, mkMaximum_gain hg]
    congr 1
    funext x
    split
    · split
      · split
        · have := ih (s.grid.next c) (mkMaximum s c (nbhLoop s c (l1Rows s.dist) (put v c 0) true).1).2
            (l ++ [(mkMaximum s c (nbhLoop s c (l1Rows s.dist) (put v c 0) true).1).1])
          rw [List.map_append] at this
          exact this
        · exact ih ..
      · exact ih ..
    · exact ih ..

/-- The drift plane in another unit. -/
def gainPlane {D : Type} (g : F → F) (p : Plane F D) : Plane F D := { p with val := fun c => g (p.val c) }

theorem protohitSearch_gain {D : Type} {ar : Arith F D} {g : F → F} {gD : D → D} (hg : Gain g)
    (hD : GainD ar g gD) (fltMin : F) (p : Plane F D) (noisePower floor : F) (o : Options F) :
    protohitSearch ar fltMin (gainPlane g p) (g noisePower) (g floor) o =
      List.map (gainProto g) <$> protohitSearch ar fltMin p noisePower floor o := by
  have hs : toSearch ar (gainPlane g p) (g noisePower) (g floor) o =
      gainSearch g (toSearch ar p noisePower floor o) := by
    simp only [toSearch, gainPlane, gainSearch, Search.mk.injEq, true_and, and_true]
    funext d
    cases p.rates[d.toNat]? with
    | none => exact hg.zero.symm
    | some r => exact hD.noise _ _
  unfold protohitSearch
  rw [hs]
  by_cases h : p.rates.length < p.grid.drifts
  · simp only [gainPlane, h, if_true]; rfl
  · simp only [gainPlane, h, if_false]
    cases o.method with
    | connectedComponents => exact threshScan_gain hg _ _ _ _ _ []
    | localMaxima => exact maximaScan_gain hg _ _ _ _ []
    | other => rfl

theorem toHits_gain {D : Type} {ar : Arith F D} {g : F → F} {gD : D → D} (hg : Gain g)
    (hD : GainD ar g gD) (junk : Coord → Int) (cc : Channel D) (p : Plane F D) (floor : F)
    (l : List (Protohit F)) :
    toHits ar junk cc (gainPlane g p) (g floor) (l.map (gainProto g)) =
      List.map (Hit.inUnit gD) <$> toHits ar junk cc p floor l := by
  induction l with
  | nil => rfl
  | cons c l ih =>
    have h1 : toHit ar junk cc (gainPlane g p) (g floor) (gainProto g c) =
        Hit.inUnit gD <$> toHit ar junk cc p floor c := by
      unfold toHit
      simp only [gainPlane, gainProto]
      cases p.rates[c.indexMax.1.toNat]? with
      | none => rfl
      | some r =>
        cases c.noise with
        | none => rfl
        | some n =>
          simp only [Option.map_some, hg.ratio, hD.power]
          rfl
    simp only [toHits, List.map_cons, map_bind', h1, ih, bind_map']
    rfl

/-- **C116.** The same spectra in another unit, with the noise floor and the noise power in that unit,
give the same hits, in the same order, with the same signal to noise ratios; only the powers are in
the other unit. A search that throws or is undefined does so in either unit. Holds for both search
methods, any drifts, with and without desmearing. -/
theorem C116_unit_of_data (R24 : Rounding 24) (R53 : Rounding 53) (hz : Fl → Fl) (ar : Arith F Fl)
    (fltMin : F) (junk : Coord → Int) (cc : Channel Fl) (inp : Input F) (ro : RateOptions)
    (noisePower floor : F) (o : Options F) (g : F → F) (gD : Fl → Fl) (hg : Gain g)
    (hD : GainD ar g gD) :
    driftSearch R24 R53 hz ar fltMin junk cc (inUnit g inp) ro (g noisePower) (g floor) o =
      List.map (Hit.inUnit gD) <$>
        driftSearch R24 R53 hz ar fltMin junk cc inp ro noisePower floor o := by
  unfold driftSearch
  rw [integrateDrifts_gain hg, bind_map', map_bind']
  congr 1
  funext r
  obtain ⟨a, rates⟩ := r
  have hp : planeOf (inUnit g inp) (gainAcc g a) rates = gainPlane g (planeOf inp a rates) := by
    simp only [planeOf, gainPlane, gainAcc, inUnit, Plane.mk.injEq, true_and, and_true]
    funext c
    cases a.plane (c.1 * inp.numChannels + c.2) with
    | none => exact hg.zero.symm
    | some x => rfl
  simp only [hp, hitSearch]
  rw [protohitSearch_gain hg hD, bind_map', map_bind']
  congr 1
  funext l
  exact toHits_gain hg hD junk cc _ floor l

end

/-! ## Changes of unit -/

/-- In exact arithmetic multiplying by any positive constant is a change of unit. -/
theorem scaling {F : Type} [Field F] [LinearOrder F] [IsStrictOrderedRing F] (c : F) (hc : 0 < c) :
    Gain (fun x : F => c * x) where
  zero := mul_zero c
  add := mul_add c
  div := fun a n => by rw [mul_div_assoc]
  lt := fun a b => mul_lt_mul_iff_right₀ hc
  ratio := fun a b n => by rw [← mul_sub, mul_div_mul_left _ _ hc.ne']

theorem expo_scale (k : ℤ) (x : ℚ) (hx : x ≠ 0) : expo (2 ^ k * x) = expo x + k := by
  have h2 : (2 : ℚ) ^ k ≠ 0 := zpow_ne_zero _ (by norm_num)
  have hp : (0 : ℚ) < 2 ^ k := zpow_pos (by norm_num) _
  have hy : (2 : ℚ) ^ k * x ≠ 0 := mul_ne_zero h2 hx
  have a1 := expo_le hx
  have a2 := lt_expo x
  have b1 := expo_le hy
  have b2 := lt_expo (2 ^ k * x)
  rw [abs_mul, abs_of_pos hp] at b1 b2
  have c1 : (2 : ℚ) ^ (expo x + k) ≤ 2 ^ k * |x| := by
    rw [zpow_add₀ (by norm_num), mul_comm]
    exact mul_le_mul_of_nonneg_left a1 hp.le
  have c2 : (2 : ℚ) ^ k * |x| < 2 ^ (expo x + 1 + k) := by
    rw [zpow_add₀ (by norm_num) (expo x + 1), mul_comm]
    exact mul_lt_mul_of_pos_right a2 hp
  have d1 := (zpow_lt_zpow_iff_right₀ (by norm_num : (1 : ℚ) < 2)).1 (lt_of_le_of_lt b1 c2)
  have d2 := (zpow_lt_zpow_iff_right₀ (by norm_num : (1 : ℚ) < 2)).1 (lt_of_le_of_lt c1 b2)
  omega

/-- Rounding to nearest commutes with multiplication by a power of two. -/
theorem rne_scale (p : Nat) (k : ℤ) (x : ℚ) : rne p (2 ^ k * x) = 2 ^ k * rne p x := by
  have h2 : (2 : ℚ) ^ k ≠ 0 := zpow_ne_zero _ (by norm_num)
  by_cases hx : x = 0
  · subst hx; simp [rne]
  have hu : ulp p (2 ^ k * x) = 2 ^ k * ulp p x := by
    unfold ulp
    rw [expo_scale k x hx, ← zpow_add₀ (by norm_num)]
    congr 1
    ring
  unfold rne
  rw [if_neg hx, if_neg (mul_ne_zero h2 hx), hu, mul_div_mul_left _ _ h2]
  ring

/-- Binary floating-point numbers with `p` significant bits and unbounded exponent: every operation
rounds to nearest even. Division by zero gives 0 rather than an infinity. -/
@[ext] structure Bin (p : Nat) where
  q : ℚ

namespace Bin
variable {p : Nat}
instance : Zero (Bin p) := ⟨⟨0⟩⟩
instance : OfNat (Bin p) 2 := ⟨⟨2⟩⟩
instance : Add (Bin p) := ⟨fun a b => ⟨rne p (a.q + b.q)⟩⟩
instance : Sub (Bin p) := ⟨fun a b => ⟨rne p (a.q - b.q)⟩⟩
instance : Div (Bin p) := ⟨fun a b => ⟨rne p (a.q / b.q)⟩⟩
instance : IntCast (Bin p) := ⟨fun n => ⟨rne p n⟩⟩
instance : LT (Bin p) := ⟨fun a b => a.q < b.q⟩
instance : DecidableLT (Bin p) := fun a b => inferInstanceAs (Decidable (a.q < b.q))

/-- Multiplication by `2 ^ k`, which is exact. -/
def scale (k : ℤ) (a : Bin p) : Bin p := ⟨2 ^ k * a.q⟩
end Bin

/-- In floating point multiplying by a power of two is a change of unit. -/
theorem binaryScaling (p : Nat) (k : ℤ) : Gain (Bin.scale (p := p) k) where
  zero := Bin.ext (mul_zero _)
  add := fun a b => Bin.ext (by
    show 2 ^ k * rne p (a.q + b.q) = rne p (2 ^ k * a.q + 2 ^ k * b.q)
    rw [← mul_add, rne_scale])
  div := fun a n => Bin.ext (by
    show 2 ^ k * rne p (a.q / rne p n) = rne p (2 ^ k * a.q / rne p n)
    rw [mul_div_assoc, rne_scale])
  lt := fun a b => mul_lt_mul_iff_right₀ (zpow_pos (by norm_num : (0 : ℚ) < 2) k)
  ratio := fun a b n => Bin.ext (by
    show rne p (rne p (2 ^ k * a.q - 2 ^ k * b.q) / (2 ^ k * n.q)) = rne p (rne p (a.q - b.q) / n.q)
    rw [← mul_sub, rne_scale, mul_div_mul_left _ _ (zpow_ne_zero _ (by norm_num))])

/-- `double` arithmetic on `float` samples: every operation rounds to 53 bits, conversion to `float`
rounds to 24. `sqrt` is any function. -/
def binArith (sqrt : ℚ → ℚ) : Arith (Bin 24) Fl where
  toD := fun x => .fin x.q
  toF := fun x => match x with | .fin x => ⟨rne 24 x⟩ | _ => 0
  ofInt := fun n => .fin (rne 53 n)
  add := fun x y => match x, y with | .fin x, .fin y => .fin (rne 53 (x + y)) | _, _ => .nan
  mul := fun x y => match x, y with | .fin x, .fin y => .fin (rne 53 (x * y)) | _, _ => .nan
  div := fun x y => match x, y with | .fin x, .fin y => .fin (rne 53 (x / y)) | _, _ => .nan
  abs := fun x => match x with | .fin x => .fin |x| | x => x
  sqrt := fun x => match x with | .fin x => .fin (sqrt x) | x => x
  million := .fin 1000000

/-- Powers of two in `double`. -/
def Fl.scale (k : ℤ) : Fl → Fl
  | .fin x => .fin (2 ^ k * x)
  | x => x

theorem binaryScalingD (sqrt : ℚ → ℚ) (k : ℤ) :
    GainD (binArith sqrt) (Bin.scale k) (Fl.scale k) where
  noise := fun p s => by
    cases s with
    | fin s =>
      refine Bin.ext ?_
      show rne 24 (rne 53 (2 ^ k * p.q / s)) = 2 ^ k * rne 24 (rne 53 (p.q / s))
      rw [mul_div_assoc, rne_scale, rne_scale]
    | inf b => exact Bin.ext (mul_zero _).symm
    | nan => exact Bin.ext (mul_zero _).symm
  power := fun a b => by
    show Fl.fin (rne 24 (2 ^ k * a.q - 2 ^ k * b.q)) = Fl.fin (2 ^ k * rne 24 (a.q - b.q))
    rw [← mul_sub, rne_scale]

/-- **C116 (floating point).** With every sample, the noise floor and the noise power multiplied by
`2 ^ k`, the search in `float` and `double` arithmetic, rounding to nearest even, reports the same
hits bit for bit, with the powers multiplied by `2 ^ k`. -/
theorem C116_power_of_two (hz : Fl → Fl) (sqrt : ℚ → ℚ) (fltMin : Bin 24) (junk : Coord → Int)
    (cc : Channel Fl) (inp : Input (Bin 24)) (ro : RateOptions) (noisePower floor : Bin 24)
    (o : Options (Bin 24)) (k : ℤ) :
    driftSearch (nearestEven 24 (by norm_num)) (nearestEven 53 (by norm_num)) hz (binArith sqrt)
        fltMin junk cc (inUnit (Bin.scale k) inp) ro (Bin.scale k noisePower) (Bin.scale k floor) o =
      List.map (Hit.inUnit (Fl.scale k)) <$>
        driftSearch (nearestEven 24 (by norm_num)) (nearestEven 53 (by norm_num)) hz (binArith sqrt)
          fltMin junk cc inp ro noisePower floor o :=
  C116_unit_of_data _ _ hz _ fltMin junk cc inp ro noisePower floor o _ _ (binaryScaling 24 k)
    (binaryScalingD sqrt k)

/-- A tone of 11, 10, 9 moving by one channel per time step. -/
def exTone (c : ℚ) : Input (Bin 24) :=
  denseInput 3 8 (fun t ch => if ch = 2 + t then ⟨c * (11 - t)⟩ else 0) (fun _ _ => 0)

def exToneHits (c : ℚ) : Option (List (ℚ × Int × Int × ℚ)) :=
  match driftSearch (nearestEven 24 (by norm_num)) (nearestEven 53 (by norm_num)) id (binArith id)
      ⟨2 ^ (-126 : ℤ)⟩ (fun _ => 0) ⟨.fin 0, .fin 1, .fin 0, .fin 1, 0⟩ (exTone c)
      { low := -2, high := 3, step := 1 } ⟨c⟩ ⟨0⟩ ⟨.connectedComponents, ⟨10⟩, 1⟩ with
  | .ok l => some (l.map fun h => (h.snr.q, h.startFreqIndex, h.rateIndex, match h.power with | .fin q => q | _ => 0))
  | _ => none

-- the tone is found, at the same place and with the same signal to noise ratio in either unit
example : (exToneHits 1).map List.getLast? = some (some (30, 2, 4, 10)) ∧
    (exToneHits (1 / 1024)).map List.getLast? = some (some (30, 2, 4, 10 / 1024)) := by
  decide +kernel

end Bliss.Hit
