import Verif.Hit.PipelineProps
import Verif.Misc.Passband

/-!
# Search of an equalized channel (C146)

`equalize_passband_filter` followed by the steps of `Verif/Hit/Pipeline.lean` on a coarse channel in
host memory. A channel whose samples were multiplied, fine channel by fine channel, by the response of
the channelizer is searched as if they had not been.
-/

namespace Bliss.Hit

open Bliss.Drift Bliss.Comp Bliss.Float Bliss.Nd Bliss.Stat Bliss.Flag Bliss.Passband

variable {F D : Type}

section
variable [Zero F] [Add F] [Sub F] [Div F] [IntCast F] [LT F] [DecidableLT F] [OfNat F 2]

/-- `equalize_passband_filter(cc, h)` (bliss/preprocess/passband_static_equalize.cpp lines 109-115) and
then the steps of `searchFlagged` on the channel it returns. `resp` is the response, on the device of
the channel, `divF` the division of two `float`s. Simplified: the quotient is computed once, where the
program computes an equal array at every access of the data. -/
def searchEqualized (R24 : Rounding 24) (R53 : Rounding 53) (hz : Fl → Fl) (ar : Arith F Fl)
    (fltMin : F) (junk : Coord → Int) (cc : Channel Fl) (width : Int → Int) (so : SkOps F)
    (lt gt : F → Bool) (nsk : Int) (d : F) (o : StatOps F D) (ro : RateOptions) (op : Options F)
    (tiny : Fl → Bool) (zeroDrift : Bool) (divF : F → F → F) (data resp mask : Arr)
    (je : Int → Val F) (j : Nat → Nat → Int → Val F) (h : Heap (Val F)) :
    Outcome (List (Hit F Fl)) := do
  let e ← equalize (Val.map2 divF) data resp je h
  searchFlagged R24 R53 hz ar fltMin junk cc width so lt gt nsk d o ro op tiny zeroDrift e.2 mask j e.1

end

/-! ## Specification -/

/-- A channel of `T` time steps and `N` fine channels with samples `Y` and no flags in memory, and a
response of `N` values `R` in a block of its own. -/
structure WithResponse (h : Heap (Val F)) (T N : Nat) (Y : Nat → Int → F) (R : Int → F)
    (bd bm br : Nat) : Prop where
  channel : Loaded h T N Y bd bm
  respIn : br < h.next
  resp : h.Contains (dense br [(N : Int)]) (fun i => .num (R (i.getD 0 0)))

/-- The sizes for which the division of a channel by a response is defined (C96): more than one fine
channel, and not as many time steps as fine channels. -/
structure Divisible (T N : Nat) : Prop where
  steps : 1 ≤ T
  channels : 2 ≤ N
  ne : N ≠ T

/-! ## Proof -/

/-- The quotient is a channel of its own, with the mask of the old one. -/
theorem equalize_loaded (divF : F → F → F) {h : Heap (Val F)} {T N : Nat} {Y : Nat → Int → F}
    {R : Int → F} {bd bm br : Nat} (hw : WithResponse h T N Y R bd bm br) (hs : Divisible T N)
    (je : Int → Val F) :
    ∃ h' b, equalize (Val.map2 divF) (dense bd [(T : Int), (N : Int)]) (dense br [(N : Int)]) je h =
        .ok (h', dense b [(T : Int), (N : Int)]) ∧
      Loaded h' T N (fun t c => divF (Y t c) (R c)) b bm := by
  obtain ⟨⟨hne, hbd, hbm, hX, hM⟩, hbr, hR⟩ := hw
  obtain ⟨hT, hN, hNT⟩ := hs
  have hexp : expandShapes (dense bd [(T : Int), (N : Int)]).shape (dense br [(N : Int)]).shape =
      .ok [(T : Int), (N : Int)] := by
    rw [dense_shape, dense_shape]
    have h1 : Max.max (T : Int) 1 = T := by omega
    simp [expandShapes, expandRev, h1]
  have hpos : ∀ s ∈ [(T : Int), (N : Int)], 0 ≤ s := by
    intro s hs
    simp at hs
    omega
  obtain ⟨ba, bb⟩ := expandShapes_broadcasts hexp
    (by rw [dense_shape]; intro s hs; simp at hs; omega)
    (by rw [dense_shape]; intro s hs; simp at hs; omega)
  have fb : FrontSafe (dense br [(N : Int)]).shape [(T : Int), (N : Int)] := by
    refine .inr ⟨N, [], dense_shape _ _, ?_⟩
    rw [dense_shape]
    simp
    omega
  obtain ⟨p1, p2, p3, p4, p5, p6, p7⟩ := alloc_props h [(T : Int), (N : Int)] je hpos
  have hne' : (alloc h [(T : Int), (N : Int)] je).2.dims ≠ [] := by
    intro e
    have : (alloc h [(T : Int), (N : Int)] je).2.shape = [] := by simp [Arr.shape, e]
    rw [p1] at this
    cases this
  obtain ⟨h', e1, e2, e3⟩ := binInto_spec (Val.map2 divF) (alloc h [(T : Int), (N : Int)] je).1
    (alloc h [(T : Int), (N : Int)] je).2 (dense bd [(T : Int), (N : Int)]) (dense br [(N : Int)]) hne'
    (by rw [p1]; exact ba) (by rw [p1]; exact bb)
    (by rw [p1]; exact frontSafe_of_length (by rw [dense_shape])) (by rw [p1]; exact fb)
    p2 (Contains.frame hX hbd p7) (Contains.frame hR hbr p7) p4 p3
    (fun e => by have : bd < h.next := hbd; have : bd = h.next := e.trans p5; omega)
    (fun e => by have : br < h.next := hbr; have : br = h.next := e.trans p5; omega)
  obtain ⟨q1, q2, q3⟩ := fresh_of_updated (h := h) p7 p5 p6 e2 e3
  refine ⟨h', h.next, ?_, ⟨by omega, by omega, by omega, ?_, ?_⟩⟩
  · unfold equalize binOp
    rw [hexp, Outcome.bind_ok]
    simp only [binCheck_false hexp, e1, Bool.false_eq_true, if_false, Outcome.bind_ok,
      Outcome.pure_eq]
    rfl
  · intro i hi
    have := q1 i (by rw [p1]; rwa [dense_shape] at hi)
    refine Eq.trans this ?_
    rw [dense_shape] at hi
    rw [dense_shape, dense_shape]
    dsimp only
    rw [bcIdx_self hi]
    obtain ⟨t, c, rfl, t0, t1, c0, c1⟩ := valid2 hi
    have hN1 : (N : Int) ≠ 1 := by omega
    simp [bcIdx, hN1, Val.map2, onIdx]
  · exact Contains.frame hM hbm q2

section
variable [Zero F] [Add F] [Sub F] [Div F] [IntCast F] [LT F] [DecidableLT F] [OfNat F 2]

/-- Samples with the same quotients are searched alike. `g` is a change of unit. -/
theorem equalized_search (R24 : Rounding 24) (R53 : Rounding 53) (hz : Fl → Fl) (ar : Arith F Fl)
    (fltMin : F) (junk : Coord → Int) (cc : Channel Fl) (width : Int → Int) (so : SkOps F)
    (lt gt : F → Bool) (nsk : Int) (d : F) (o : StatOps F D) (ro : RateOptions) (op : Options F)
    (tiny : Fl → Bool) (zeroDrift : Bool) (divF : F → F → F) (T N : Nat) (X Y : Nat → Int → F)
    (R : Int → F) (k : Int)
    (g gS : F → F) (gD gQ : D → D) (gF : Fl → Fl) (hg : Gain g) (hF : GainD ar g gF)
    (hS : GainSk so g gS) (hO : GainStat o g gD gQ) (hr : FlagRange width nsk T N k)
    (hd : Defined ro T N) (hs : Sane fltMin op.thr) (hdv : Divisible T N)
    (hq : ∀ t c, divF (Y t c) (R c) = g (X t c))
    (j : Nat → Nat → Int → Val F) (h : Heap (Val F)) (bd bm : Nat) (hload : Loaded h T N X bd bm)
    (je : Int → Val F) (j' : Nat → Nat → Int → Val F) (h' : Heap (Val F)) (bd' bm' br' : Nat)
    (hw : WithResponse h' T N Y R bd' bm' br') :
    searchEqualized R24 R53 hz ar fltMin junk cc width so lt gt nsk d o ro op tiny zeroDrift divF
        (dense bd' [(T : Int), (N : Int)]) (dense br' [(N : Int)]) (dense bm' [(T : Int), (N : Int)])
        je j' h' =
      List.map (Hit.inUnit gF) <$>
        searchFlagged R24 R53 hz ar fltMin junk cc width so lt gt nsk d o ro op tiny zeroDrift
          (dense bd [(T : Int), (N : Int)]) (dense bm [(T : Int), (N : Int)]) j h := by
  obtain ⟨h2, b, e, hl⟩ := equalize_loaded divF hw hdv je
  simp only [hq] at hl
  unfold searchEqualized
  rw [e, Outcome.bind_ok]
  exact C118_unit_of_file R24 R53 hz ar fltMin junk cc width so lt gt nsk d o ro op tiny zeroDrift T N
    X k g gS gD gQ gF hg hF hS hO hr hd hs j h bd bm hload j' h2 b bm' hl

end

theorem gain_id {F : Type} [Zero F] [Add F] [Sub F] [Div F] [IntCast F] [LT F] :
    Gain (fun x : F => x) :=
  ⟨rfl, fun _ _ => rfl, fun _ _ => rfl, fun _ _ => Iff.rfl, fun _ _ _ => rfl⟩

section
variable [Field F] [LinearOrder F] [IsStrictOrderedRing F]

/-- **C146.** In exact arithmetic, whatever the shape `s` of the band, as long as the response is
nowhere zero: a channel whose samples are those of another times the response of their fine channel,
divided by that response, gives the same result as the other channel without equalization, hit for
hit, or the same failure. The two runs may differ in what fresh memory holds. -/
theorem C146_shape_removed (R24 : Rounding 24) (R53 : Rounding 53) (hz : Fl → Fl) (ar : Arith F Fl)
    (fltMin : F) (junk : Coord → Int) (cc : Channel Fl) (width : Int → Int) (so : SkOps F)
    (lt gt : F → Bool) (nsk : Int) (d : F) (o : StatOps F D) (ro : RateOptions) (op : Options F)
    (tiny : Fl → Bool) (zeroDrift : Bool) (T N : Nat) (X : Nat → Int → F) (s : Int → F)
    (hs0 : ∀ c, s c ≠ 0) (k : Int) (hr : FlagRange width nsk T N k) (hd : Defined ro T N)
    (hthr : 0 ≤ op.thr) (hmin : fltMin ≤ op.thr) (hdv : Divisible T N)
    (j : Nat → Nat → Int → Val F) (h : Heap (Val F)) (bd bm : Nat) (hload : Loaded h T N X bd bm)
    (je : Int → Val F) (j' : Nat → Nat → Int → Val F) (h' : Heap (Val F)) (bd' bm' br' : Nat)
    (hw : WithResponse h' T N (fun t c => s c * X t c) s bd' bm' br') :
    searchEqualized R24 R53 hz ar fltMin junk cc width so lt gt nsk d o ro op tiny zeroDrift (· / ·)
        (dense bd' [(T : Int), (N : Int)]) (dense br' [(N : Int)]) (dense bm' [(T : Int), (N : Int)])
        je j' h' =
      searchFlagged R24 R53 hz ar fltMin junk cc width so lt gt nsk d o ro op tiny zeroDrift
        (dense bd [(T : Int), (N : Int)]) (dense bm [(T : Int), (N : Int)]) j h := by
  have hsane : Sane fltMin op.thr :=
    { trans := fun _ _ _ h1 h2 => lt_trans h1 h2
      irrefl := fun a => lt_irrefl a
      half := fun v hv => lt_of_le_of_lt (half_le_self hthr) hv
      normal := fun v hv => lt_of_le_of_lt hmin hv }
  have := equalized_search R24 R53 hz ar fltMin junk cc width so lt gt nsk d o ro op tiny zeroDrift
    (· / ·) T N X (fun t c => s c * X t c) s k (fun x => x) (fun x => x) (fun x => x) (fun x => x)
    (fun x => x) gain_id ⟨fun _ _ => rfl, fun _ _ => rfl⟩
    ⟨rfl, rfl, fun _ _ => rfl, fun _ _ => rfl, fun _ _ => rfl, fun _ _ => rfl⟩
    ⟨fun _ => rfl, fun _ => rfl, rfl, rfl, fun _ _ => rfl, fun _ _ => rfl, fun _ _ => rfl,
      fun _ _ => rfl, fun _ _ => rfl, fun _ _ => rfl, fun _ => rfl⟩ hr hd hsane hdv
    (fun t c => mul_div_cancel_left₀ _ (hs0 c)) j h bd bm hload je j' h' bd' bm' br' hw
  rw [this]
  have hid : Hit.inUnit (F := F) (D := Fl) (fun x => x) = id := rfl
  rw [hid]
  cases searchFlagged R24 R53 hz ar fltMin junk cc width so lt gt nsk d o ro op tiny zeroDrift
    (dense bd [(T : Int), (N : Int)]) (dense bm [(T : Int), (N : Int)]) j h with
  | ok l => show Outcome.ok (List.map id l) = _; rw [List.map_id]
  | throws e => rfl
  | ub => rfl

end

/-- **C146 (floating point).** In `float` and `double` arithmetic rounding to nearest even, a channel
whose fine channel `c` was multiplied by `2 ^ e c`, divided by a response `2 ^ (e c - m)`, gives the
hits of the unshaped channel bit for bit, with the powers multiplied by `2 ^ m`. Missing: responses
other than powers of two, where the quotient is rounded. -/
theorem C146_power_of_two_partial (hz : Fl → Fl) (sqrt sqrtN : ℚ → ℚ) (m : ℤ)
    (hq : ∀ x, sqrtN (2 ^ (m + m) * x) = 2 ^ m * sqrtN x)
    (fltMin : Bin 24) (junk : Coord → Int) (cc : Channel Fl) (width : Int → Int)
    (lt gt : Bin 24 → Bool) (nsk : Int) (d : Bin 24) (ro : RateOptions) (op : Options (Bin 24))
    (tiny : Fl → Bool) (zeroDrift : Bool) (T N : Nat) (X : Nat → Int → Bin 24)
    (hX : ∀ t c, rne 24 (X t c).q = (X t c).q) (e : Int → ℤ) (k : Int)
    (hr : FlagRange width nsk T N k) (hd : Defined ro T N) (hthr : 0 ≤ op.thr.q)
    (hmin : fltMin.q ≤ op.thr.q) (hdv : Divisible T N)
    (j : Nat → Nat → Int → Val (Bin 24)) (h : Heap (Val (Bin 24))) (bd bm : Nat)
    (hload : Loaded h T N X bd bm) (je : Int → Val (Bin 24))
    (j' : Nat → Nat → Int → Val (Bin 24)) (h' : Heap (Val (Bin 24))) (bd' bm' br' : Nat)
    (hw : WithResponse h' T N (fun t c => Bin.scale (e c) (X t c)) (fun c => ⟨2 ^ (e c - m)⟩)
      bd' bm' br') :
    searchEqualized (nearestEven 24 (by norm_num)) (nearestEven 53 (by norm_num)) hz
        (binArith sqrt) fltMin junk cc width binSk lt gt nsk d (binStat sqrtN) ro op tiny zeroDrift
        (· / ·) (dense bd' [(T : Int), (N : Int)]) (dense br' [(N : Int)])
        (dense bm' [(T : Int), (N : Int)]) je j' h' =
      List.map (Hit.inUnit (Fl.scale m)) <$>
        searchFlagged (nearestEven 24 (by norm_num)) (nearestEven 53 (by norm_num)) hz
          (binArith sqrt) fltMin junk cc width binSk lt gt nsk d (binStat sqrtN) ro op tiny zeroDrift
          (dense bd [(T : Int), (N : Int)]) (dense bm [(T : Int), (N : Int)]) j h :=
  equalized_search _ _ hz _ fltMin junk cc width _ lt gt nsk d _ ro op tiny zeroDrift _ T N X _ _ k _ _
    _ _ _ (binaryScaling 24 m) (binaryScalingD sqrt m) (binSk_gain m) (binStat_gain sqrtN m hq) hr hd
    { trans := fun _ _ _ h1 h2 => lt_trans (α := ℚ) h1 h2
      irrefl := fun a => lt_irrefl a.q
      half := fun v hv => by
        show rne 24 (op.thr.q / 2) < v.q
        have e := (abs_le.mp (rne_err (p := 24) (op.thr.q / 2))).2
        rw [abs_of_nonneg (by positivity)] at e
        have h24 : (2 : ℚ) ^ (-((24 : ℕ) : ℤ)) ≤ 1 := by norm_num
        have hv' : op.thr.q < v.q := hv
        nlinarith
      normal := fun v hv => lt_of_le_of_lt hmin hv } hdv
    (fun t c => Bin.ext (by
      show rne 24 (2 ^ e c * (X t c).q / 2 ^ (e c - m)) = 2 ^ m * (X t c).q
      have h2 : (2 : ℚ) ≠ 0 := by norm_num
      have : (2 : ℚ) ^ e c * (X t c).q / 2 ^ (e c - m) = 2 ^ m * (X t c).q := by
        rw [zpow_sub₀ h2]
        have := zpow_ne_zero (e c) h2
        have := zpow_ne_zero m h2
        field_simp
      rw [this, rne_scale, hX]))
    j h bd bm hload je j' h' bd' bm' br' hw

section
variable [Zero F] [Add F] [Sub F] [Div F] [IntCast F] [LT F] [DecidableLT F] [OfNat F 2]

/-- **C146 (failures).** A response of another length is refused before anything is searched. A
channel with as many time steps as fine channels, and a response of one value, are undefined. -/
theorem C146_other_responses (R24 : Rounding 24) (R53 : Rounding 53) (hz : Fl → Fl) (ar : Arith F Fl)
    (fltMin : F) (junk : Coord → Int) (cc : Channel Fl) (width : Int → Int) (so : SkOps F)
    (lt gt : F → Bool) (nsk : Int) (d : F) (o : StatOps F D) (ro : RateOptions) (op : Options F)
    (tiny : Fl → Bool) (zeroDrift : Bool) (divF : F → F → F) (data resp mask : Arr) (T N G : Int)
    (hd : data.shape = [T, N]) (hr : resp.shape = [G]) (hT : 1 ≤ T) (hN : 1 ≤ N)
    (je : Int → Val F) (j : Nat → Nat → Int → Val F) (h : Heap (Val F)) :
    (N ≠ 1 → G ≠ 1 → N ≠ G →
      searchEqualized R24 R53 hz ar fltMin junk cc width so lt gt nsk d o ro op tiny zeroDrift divF
        data resp mask je j h = .throws .invalidArgument) ∧
    ((N = T ∧ G = N) ∨ G = 1 →
      searchEqualized R24 R53 hz ar fltMin junk cc width so lt gt nsk d o ro op tiny zeroDrift divF
        data resp mask je j h = .ub) := by
  constructor
  · intro h1 h2 h3
    unfold searchEqualized
    rw [C96_other_length_rejected _ data resp T N G hd hr h1 h2 h3 je h]
    rfl
  · intro hbad
    unfold searchEqualized
    rw [C96_square_undefined _ data resp T N G hd hr hT hN hbad je h]
    rfl

end

/-! ## A channel -/

/-- The channel of `exChan` behind a filter that halves and quarters fine channels towards the edges,
and the response of that filter. -/
def exShape (c : Int) : ℤ := if c < 2 ∨ 10 ≤ c then -2 else if c < 4 ∨ 8 ≤ c then -1 else 0

def exShaped : Heap (Val (Bin 24)) where
  mem b i :=
    if b = 0 then
      (if 0 ≤ i ∧ i < 36 then
        some (.num (Bin.scale (exShape (i % 12)) (exChan 1 (i / 12).toNat (i % 12)))) else none)
    else if b = 1 then (if 0 ≤ i ∧ i < 36 then some (.flag 0) else none)
    else if b = 2 then (if 0 ≤ i ∧ i < 12 then some (.num ⟨2 ^ exShape i⟩) else none)
    else none
  next := 3

def exEqualized (divide : Bool) : Option (List (ℚ × Int × Int × ℚ)) :=
  match searchEqualized (nearestEven 24 (by norm_num)) (nearestEven 53 (by norm_num)) id
    (binArith binSqrt) ⟨2 ^ (-126 : ℤ)⟩ (fun _ => 0) ⟨.fin 0, .fin 1, .fin 0, .fin 1, 0⟩ (fun _ => 1)
    binSk (fun x => decide (x.q < 1 / 20)) (fun x => decide (5 < x.q)) 1 ⟨2⟩ (binStat binSqrt)
    { low := -2, high := 3, step := 1 } ⟨.connectedComponents, ⟨250⟩, 1⟩
    (fun x => match x with | .fin q => decide (|q| < 1 / 1000000) | _ => false) true
    (fun a b => if divide then a / b else a)
    (dense 0 [(3 : Nat), (12 : Nat)]) (dense 2 [(12 : Nat)]) (dense 1 [(3 : Nat), (12 : Nat)])
    (fun _ => .flag 0) (fun _ _ _ => .flag 0) exShaped with
  | .ok l => some (l.map fun h => (h.snr.q, h.startFreqIndex, h.rateIndex,
      match h.power with | .fin q => q | _ => 0))
  | _ => none

-- the hit of the unshaped channel (`exHits 1`); without the division it is another one
example : exEqualized true = some [(5032195 / 16384, 3, 4, 11595503 / 131072)] ∧
    exEqualized false ≠ exEqualized true := by decide +kernel

theorem exWith : WithResponse exShaped 3 12 (fun t c => Bin.scale (exShape c) (exChan 1 t c))
    (fun c => ⟨2 ^ (exShape c - 0)⟩) 0 1 2 where
  channel :=
    { apart := by decide
      dataIn := by decide
      maskIn := by decide
      data := by
        intro i hi
        obtain ⟨t, ch, rfl, h1, h2, h3, h4⟩ := valid2 hi
        have e : addr (dense 0 [((3 : Nat) : Int), ((12 : Nat) : Int)]).dims [t, ch] = 12 * t + ch := by
          simp [addr, dense, denseDims]
          try ring
        show exShaped.mem 0 _ = _
        rw [e]
        have e1 : (12 * t + ch) / 12 = t := by omega
        have e2 : (12 * t + ch) % 12 = ch := by omega
        have e3 : 0 ≤ 12 * t + ch ∧ 12 * t + ch < 36 := by omega
        simp only [exShaped, e3, e1, e2, onIdx]
        simp
      mask := by
        intro i hi
        obtain ⟨t, ch, rfl, h1, h2, h3, h4⟩ := valid2 hi
        have e : addr (dense 1 [((3 : Nat) : Int), ((12 : Nat) : Int)]).dims [t, ch] = 12 * t + ch := by
          simp [addr, dense, denseDims]
          try ring
        show exShaped.mem 1 _ = _
        rw [e]
        have e3 : 0 ≤ 12 * t + ch ∧ 12 * t + ch < 36 := by omega
        simp [exShaped, e3] }
  respIn := by decide
  resp := by
    intro i hi
    rw [dense_shape] at hi
    match i, hi with
    | [c], .cons h1 .nil =>
      have e : addr (dense 2 [((12 : Nat) : Int)]).dims [c] = c := by
        simp [addr, dense, denseDims]
      show exShaped.mem 2 _ = _
      rw [e]
      have e3 : 0 ≤ c ∧ c < 12 := ⟨h1.1, by have := h1.2; omega⟩
      simp [exShaped, e3]

example : Divisible 3 12 := ⟨by decide, by decide, by decide⟩

end Bliss.Hit
