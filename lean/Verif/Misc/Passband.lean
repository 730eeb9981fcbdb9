import Verif.Flag.Clip
import Verif.Misc.Fft

/-!
# Channelizer response and passband equalization (C95, C96)

Models bliss/preprocess/passband_static_equalize.cpp. The taps (`firdes`, with sines and cosines) and
the transform are parameters.
-/

namespace Bliss.Passband

open Bliss.Nd Bliss.Stat Bliss.Fft

variable {V D : Type}

/-- `bland::fft_shift_mag_square(x)` on the CPU (frequency.cpp lines 23-45,
frequency_cpu_impl.cpp lines 20-52): `power` gives, from the content of the input, the squared
magnitude of every output of the transform. A negative size is taken as 0. -/
def fftShift (power : Buf V → Nat → V) (x : Arr) (junk : Int → V) (h : Heap V) :
    Outcome (Heap V × Arr) :=
  match x.shape with
  | [] => .ub
  | n :: _ => do
    let (h1, out) := alloc h x.shape junk
    let b ← shiftMagSquare (power (h.mem x.blk)) n.toNat junk
    pure ({ h1 with mem := fun k => if k = out.blk then b else h1.mem k }, out)

/-- The end of `gen_coarse_channel_response` (passband_static_equalize.cpp lines 86-104): cut half a
channel off either end, fold the rest, normalize. Dividing by `fine = 0` is undefined. -/
def fold (o : StatOps V D) (divV : V → V → V) (fine total : Int) (H : Arr) (j1 j2 j3 : Int → V)
    (h : Heap V) : Outcome (Heap V × Arr) := do
  if fine = 0 then .ub else
  let contributing := (H.shape.headD 0).tdiv fine - 1
  let s ← slice H 0 (fine.tdiv 2) (total - fine.tdiv 2) 1
  let r ← reshape s [contributing, fine]
  let (h1, S) ← sum o r [0] j1 h
  let (h2, M) ← max o S [] j2 h1
  binOp divV h2 S M j3

/-- `gen_coarse_channel_response` (passband_static_equalize.cpp lines 66-107): `taps` are the
`numTaps = taps_per_channel * num_coarse_channels` values of `firdes`. The product
`num_coarse_channels * fine_per_coarse` is an `int` and overflows from 2^31 on. The last two
parameters of the C++ function have no effect. -/
def genResponse (o : StatOps V D) (divV : V → V → V) (power : Buf V → Nat → V) (taps : Int → V)
    (fine coarse numTaps : Int) (jf j1 j2 j3 : Int → V) (h : Heap V) : Outcome (Heap V × Arr) := do
  let total := coarse * fine
  if 2147483648 ≤ total then .ub else
  let (h1, t) := alloc h [numTaps] taps
  let (h2, padded) := alloc h1 [total] (fun _ => o.zeroV)
  let view ← slice padded 0 0 numTaps 1
  let h3 ← assignSlice id h2 view t
  let (h4, H) ← fftShift power padded jf h3
  fold o divV fine total H j1 j2 j3 h4

theorem bind_eq_ok {α β : Type} {x : Outcome α} {f : α → Outcome β} {b : β}
    (h : (x >>= f) = .ok b) : ∃ a, x = .ok a ∧ f a = .ok b := by
  cases x with
  | ok a => exact ⟨a, rfl, h⟩
  | throws e => cases h
  | ub => cases h

theorem fftShift_dims {power : Buf V → Nat → V} {x : Arr} {junk : Int → V} {h h' : Heap V}
    {out : Arr} (he : fftShift power x junk h = .ok (h', out)) :
    out.dims = (denseDims x.shape).1 ∧ ((x.shape.headD 0).toNat) % 2 = 1 := by
  unfold fftShift at he
  split at he
  · cases he
  · next n ns hn =>
    obtain ⟨b, hb, he⟩ := bind_eq_ok he
    simp only [Outcome.pure_eq, Outcome.ok.injEq, Prod.mk.injEq] at he
    obtain ⟨_, rfl⟩ := he
    refine ⟨rfl, ?_⟩
    rw [hn]
    simp only [List.headD_cons]
    by_contra hc
    rw [C59_even_overflows _ _ (by omega)] at hb
    cases hb

/-- **C59 (the call).** For an odd length up to 2²⁵ + 1, `fft_shift_mag_square` returns a new array of
the size of its argument with the shifted squared magnitudes, and changes nothing else. Missing: as in
`C59_fft_shift_partial`. -/
theorem C59_call_partial {power : Buf V → Nat → V} {P : Nat → V} {x : Arr} {n : Nat} {h : Heap V}
    (hx : x.shape = [(n : Int)]) (hodd : n % 2 = 1) (hn : n ≤ 2 ^ 25 + 1)
    (hP : Spectrum (power (h.mem x.blk)) P n) (junk : Int → V) :
    ∃ h' r, fftShift power x junk h = .ok (h', r) ∧ r.shape = [(n : Int)] ∧ h.Frame h' ∧
      ∀ k : Nat, k < n → h'.get r [(k : Int)] = some (P (shiftedBin n k)) := by
  obtain ⟨-, out, h1, h2⟩ := C59_fft_shift_partial hodd hn hP junk
  refine ⟨{ (alloc h [(n : Int)] junk).1 with mem := fun k =>
      if k = h.next then out else (alloc h [(n : Int)] junk).1.mem k }, (alloc h [(n : Int)] junk).2,
    ?_, denseDims_shape [(n : Int)], fun b hb => ?_, fun k hk => ?_⟩
  · unfold fftShift
    rw [hx]
    simp only [Int.toNat_natCast, h1, Outcome.bind_ok]
    rfl
  · simp only [alloc]
    rw [if_neg (by omega), if_neg (by omega)]
  · have e : addr (alloc h [(n : Int)] junk).2.dims [(k : Int)] = k := by
      simp [alloc, denseDims, addr]
    unfold Heap.get
    rw [e]
    have hb : (alloc h [(n : Int)] junk).2.blk = h.next := rfl
    simp only [hb]
    rw [if_pos trivial]
    exact h2 k hk

/-- Concrete case: a five-point spectrum, of which the transform gives the first three bins. -/
example : Spectrum (fun i => ([7, 8, 9] : List Int).getD i 0) (fun i => [7, 8, 9, 9, 8].getD i 0) 5 := by
  refine ⟨?_, ?_⟩
  · intro i h _
    have : i < 3 := by simpa [halfN] using h
    interval_cases i <;> rfl
  · intro i h0 h5
    interval_cases i <;> rfl

/-- Cutting and folding an odd number of fine channels never fits. -/
theorem fold_odd (o : StatOps V D) (divV : V → V → V) (fine coarse : Nat) (H : Arr)
    (j1 j2 j3 : Int → V) (h : Heap V) (hH : H.dims = [⟨((coarse * fine : Nat) : Int), 1, 0⟩])
    (hodd : (coarse * fine) % 2 = 1) (r : Heap V × Arr) :
    fold o divV fine ((coarse * fine : Nat) : Int) H j1 j2 j3 h ≠ .ok r := by
  intro he
  have hf : fine % 2 = 1 ∧ coarse % 2 = 1 := by
    rw [Nat.mul_mod] at hodd
    have h1 := Nat.mod_two_eq_zero_or_one fine
    have h2 := Nat.mod_two_eq_zero_or_one coarse
    rcases h1 with h1 | h1 <;> rcases h2 with h2 | h2 <;> simp [h1, h2] at hodd ⊢
  have hle : fine ≤ coarse * fine := Nat.le_mul_of_pos_left _ (by omega)
  have htd : ((fine : Int)).tdiv 2 = ((fine / 2 : Nat) : Int) := by
    rw [Int.tdiv_eq_ediv_of_nonneg (by omega)]; omega
  have hc : (((coarse * fine : Nat) : Int)).tdiv fine - 1 = (coarse : Int) - 1 := by
    rw [Int.tdiv_eq_ediv_of_nonneg (by omega)]
    push_cast
    rw [Int.mul_ediv_cancel _ (by omega)]
  unfold fold at he
  rw [if_neg (by omega)] at he
  simp only [Arr.shape, hH, List.map_cons, List.map_nil, List.headD_cons, htd, hc] at he
  obtain ⟨s, hs, he⟩ := bind_eq_ok he
  obtain ⟨q, hq, _⟩ := bind_eq_ok he
  have hsl : s.shape = [((coarse * fine : Nat) : Int) - 2 * ((fine / 2 : Nat) : Int)] := by
    unfold slice at hs
    rw [if_neg (by omega)] at hs
    simp only [hH, Int.toNat_zero, List.getElem?_cons_zero] at hs
    rw [if_neg (by omega), if_neg (by omega), if_neg (by omega), if_neg (by omega), if_neg (by omega),
      if_neg (by omega)] at hs
    simp only [Outcome.ok.injEq] at hs
    subst hs
    simp [Arr.shape]
    omega
  unfold reshape at hq
  rw [if_pos] at hq
  · cases hq
  · simp only [Arr.numel, hsl, List.foldl_cons, List.foldl_nil, one_mul]
    have e : ((coarse : Int) - 1) * fine = ((coarse * fine : Nat) : Int) - fine := by push_cast; ring
    rw [e]
    omega

/-- **Violation of C95.** No call of `gen_coarse_channel_response` returns a response. An even number
of fine channels in total makes the transform write outside its result (C59), an odd number cannot be
folded. -/
theorem C95_never_returns (o : StatOps V D) (divV : V → V → V) (power : Buf V → Nat → V)
    (taps : Int → V) (fine coarse numTaps : Nat) (jf j1 j2 j3 : Int → V) (h : Heap V)
    (r : Heap V × Arr) :
    genResponse o divV power taps fine coarse numTaps jf j1 j2 j3 h ≠ .ok r := by
  intro he
  unfold genResponse at he
  simp only at he
  split at he
  · cases he
  · obtain ⟨view, _, he⟩ := bind_eq_ok he
    obtain ⟨h3, _, he⟩ := bind_eq_ok he
    obtain ⟨⟨h4, H⟩, hF, he⟩ := bind_eq_ok he
    obtain ⟨hd, ho⟩ := fftShift_dims hF
    simp only [alloc, denseDims, Arr.shape, List.map_cons, List.map_nil, List.headD_cons] at hd ho
    have hcast : (coarse : Int) * (fine : Int) = ((coarse * fine : Nat) : Int) := by push_cast; rfl
    rw [hcast] at hd ho he
    rw [Int.toNat_natCast] at ho
    exact fold_odd o divV fine coarse H j1 j2 j3 h4 hd ho r he

/-- **Violation of C95.** An even number of fine channels in total, which every real receiver has, is
undefined behaviour. -/
theorem C95_even_undefined (o : StatOps V D) (divV : V → V → V) (power : Buf V → Nat → V)
    (taps : Int → V) (fine coarse numTaps : Nat) (jf j1 j2 j3 : Int → V) (h : Heap V)
    (heven : (coarse * fine) % 2 = 0) (ht : numTaps ≤ coarse * fine) :
    genResponse o divV power taps fine coarse numTaps jf j1 j2 j3 h = .ub := by
  have hcast : (coarse : Int) * (fine : Int) = ((coarse * fine : Nat) : Int) := by push_cast; rfl
  unfold genResponse
  simp only [hcast]
  split
  · rfl
  · generalize hT : coarse * fine = T at *
    obtain ⟨q1, q2, q3, q4, q5, q6, q7⟩ := alloc_props h [(numTaps : Int)] taps (by simp)
    obtain ⟨p1, p2, p3, p4, p5, p6, p7⟩ := alloc_props (alloc h [(numTaps : Int)] taps).1
      [(T : Int)] (fun _ => o.zeroV) (by simp)
    obtain ⟨view, e1, e2, e3⟩ := C44_slice_partial
      (alloc (alloc h [(numTaps : Int)] taps).1 [(T : Int)] (fun _ => o.zeroV)).2 0 0 numTaps 1
      ⟨T, 1, 0⟩ rfl (by omega) (by simp) (by omega) (by omega)
    rw [show ((0 : Nat) : Int) = 0 from rfl] at e1
    rw [e1, Outcome.bind_ok]
    have hvs : view.shape = [(numTaps : Int)] := by
      rw [e3, if_pos (one_dvd _), p1]
      simp only [stepCount, List.set_cons_zero, List.cons.injEq, and_true]
      omega
    have hwf : view.WF := Flag.wf_of_shape (by rw [hvs]; simp)
    obtain ⟨h3, f1, f2, f3⟩ := unaryLoop_spec id
      (alloc (alloc h [(numTaps : Int)] taps).1 [(T : Int)] (fun _ => o.zeroV)).1 view
      (alloc h [(numTaps : Int)] taps).2 (by rw [q1, hvs]) hwf
      (A := fun idx => taps (addr (denseDims [(numTaps : Int)]).1 idx)) (by
        intro idx hv
        have hv' : ValidIdx [(numTaps : Int)] idx := by rw [q1] at hv; exact hv
        obtain ⟨k, rfl, hk0, hk1⟩ : ∃ k, idx = [k] ∧ 0 ≤ k ∧ k < (numTaps : Int) := by
          match idx, hv' with
          | [k], .cons hk .nil => exact ⟨k, rfl, hk.1, hk.2⟩
        simp only [Heap.get]
        rw [q5, p7 h.next (by rw [q6]; omega)]
        simp [alloc, denseDims, addr, Buf.ofFn, hk0, hk1])
      (e2.mapped p4)
      (e2.distinct (fun i j _ _ e => by
        have := sliceIdxMany_inj (specs := [⟨0, 0, numTaps, 1⟩]) (by simp) (i := i) (j := j)
          (by simpa [sliceIdxMany] using e)
        exact this) p3)
      (fun e => absurd (e.trans e2.blk) (by simp [alloc]))
    simp only [assignSlice]
    rw [f1, Outcome.bind_ok]
    have : fftShift power (alloc (alloc h [(numTaps : Int)] taps).1 [(T : Int)]
        (fun _ => o.zeroV)).2 jf h3 = .ub := by
      unfold fftShift
      rw [p1]
      simp only [Int.toNat_natCast]
      rw [C59_even_overflows _ _ heven]
      rfl
    rw [this]
    rfl

/-! ## What the folding computes -/

/-- Energy that folds back into fine channel `f`: the sum over the coarse channels between the two
half channels at the ends. -/
def folded (X : List Int → ℚ) (fine coarse : Nat) (f : Int) : ℚ :=
  ((List.range (coarse - 1)).map fun (c : Nat) => X [(fine / 2 : Nat) + c * fine + f]).sum

theorem foldl_max_rat (sqrt : ℚ → ℚ) (S : List Int → ℚ) (l : List (List Int)) (m : ℚ) :
    m ≤ l.foldl (fun acc j => maxStep (ratOps sqrt) acc (S j)) m ∧
    (∀ j ∈ l, S j ≤ l.foldl (fun acc j => maxStep (ratOps sqrt) acc (S j)) m) ∧
    (l.foldl (fun acc j => maxStep (ratOps sqrt) acc (S j)) m = m ∨
      ∃ j ∈ l, l.foldl (fun acc j => maxStep (ratOps sqrt) acc (S j)) m = S j) := by
  induction l generalizing m with
  | nil => simp
  | cons a l ih =>
    have hm : m ≤ maxStep (ratOps sqrt) m (S a) ∧ S a ≤ maxStep (ratOps sqrt) m (S a) ∧
        (maxStep (ratOps sqrt) m (S a) = m ∨ maxStep (ratOps sqrt) m (S a) = S a) := by
      by_cases h : m < S a
      · have e : maxStep (ratOps sqrt) m (S a) = S a := by simp [maxStep, ratOps, h]
        rw [e]; exact ⟨h.le, le_refl _, .inr rfl⟩
      · have e : maxStep (ratOps sqrt) m (S a) = m := by simp [maxStep, ratOps, h]
        rw [e]; exact ⟨le_refl _, not_lt.1 h, .inl rfl⟩
    obtain ⟨h1, h2, h3⟩ := ih (maxStep (ratOps sqrt) m (S a))
    rw [List.foldl_cons]
    refine ⟨hm.1.trans h1, fun j hj => ?_, ?_⟩
    · rcases List.mem_cons.1 hj with rfl | hj
      · exact hm.2.1.trans h1
      · exact h2 j hj
    · rcases h3 with h3 | ⟨j, hj, h3⟩
      · rcases hm.2.2 with e | e
        · exact .inl (h3.trans e)
        · exact .inr ⟨a, by simp, h3.trans e⟩
      · exact .inr ⟨j, by simp [hj], h3⟩

/-- **C95**, what is done with the spectrum, in exact arithmetic: for an even number `fine` of fine
channels and at least two coarse channels, fine channel `f` of the response is the energy folded into
it divided by the largest such energy. Missing: getting there (`C95_never_returns`). -/
theorem C95_fold_partial (sqrt : ℚ → ℚ) (fine coarse : Nat) (H : Arr) (j1 j2 j3 : Int → ℚ)
    (h : Heap ℚ) (X : List Int → ℚ) (hH : H.dims = [⟨((coarse * fine : Nat) : Int), 1, 0⟩])
    (hX : h.Contains H X) (hb : H.blk < h.next) (hf0 : 0 < fine) (hf : fine % 2 = 0)
    (hc : 2 ≤ coarse) (hpos : ∀ i, 0 ≤ X i) :
    ∃ h' r k, fold (ratOps sqrt) (· / ·) fine ((coarse * fine : Nat) : Int) H j1 j2 j3 h =
        .ok (h', r) ∧ r.shape = [(fine : Int)] ∧ 0 ≤ k ∧ k < (fine : Int) ∧
      ∀ f, 0 ≤ f → f < (fine : Int) → folded X fine coarse f ≤ folded X fine coarse k ∧
        h'.get r [f] = some (folded X fine coarse f / folded X fine coarse k) := by
  have hle : 2 * fine ≤ coarse * fine := Nat.mul_le_mul_right _ hc
  have htd : ((fine : Int)).tdiv 2 = ((fine / 2 : Nat) : Int) := by
    rw [Int.tdiv_eq_ediv_of_nonneg (by omega)]; omega
  have hcc : (((coarse * fine : Nat) : Int)).tdiv fine - 1 = ((coarse - 1 : Nat) : Int) := by
    rw [Int.tdiv_eq_ediv_of_nonneg (by omega)]
    push_cast
    rw [Int.mul_ediv_cancel _ (by omega)]; omega
  have hmul : ((coarse - 1 : Nat) : Int) * fine = ((coarse * fine : Nat) : Int) - fine := by
    rw [Nat.cast_sub (by omega)]; push_cast; ring
  let s : Arr := ⟨H.blk, [⟨((coarse * fine : Nat) : Int) - fine, 1, ((fine / 2 : Nat) : Int)⟩]⟩
  have hs : slice H 0 ((fine / 2 : Nat) : Int)
      (((coarse * fine : Nat) : Int) - ((fine / 2 : Nat) : Int)) 1 = .ok s := by
    unfold slice
    rw [if_neg (by omega)]
    simp only [hH, Int.toNat_zero, List.getElem?_cons_zero]
    rw [if_neg (by omega), if_neg (by omega), if_neg (by omega), if_neg (by omega),
      if_neg (by omega), if_neg (by omega)]
    simp only [s, Outcome.ok.injEq, Arr.mk.injEq, List.set_cons_zero, List.cons.injEq, Dim.mk.injEq,
      and_true, true_and, Int.tdiv_one]
    omega
  obtain ⟨r, hr, rb, rs, rord⟩ := C52_reshape_from_1d_partial s
    (((coarse * fine : Nat) : Int) - fine) ((fine / 2 : Nat) : Int) [((coarse - 1 : Nat) : Int), (fine : Int)]
    rfl (by simp) (by simp [hmul])
  -- contents of the reshaped view
  have hrc : h.Contains r (fun i => X [(fine / 2 : Nat) + i.getD 0 0 * fine + i.getD 1 0]) := by
    intro idx hv
    have hv' : ValidIdx [((coarse - 1 : Nat) : Int), (fine : Int)] idx := by rw [rs] at hv; exact hv
    obtain ⟨c, f, rfl, c0, c1, f0, f1⟩ : ∃ c f, idx = [c, f] ∧ 0 ≤ c ∧ c < ((coarse - 1 : Nat) : Int) ∧
        0 ≤ f ∧ f < (fine : Int) := by
      match idx, hv' with
      | [c, f], .cons hc (.cons hf .nil) => exact ⟨c, f, rfl, hc.1, hc.2, hf.1, hf.2⟩
    have hbnd : c * fine + f < ((coarse * fine : Nat) : Int) - fine := by
      rw [← hmul]
      nlinarith
    have hcf : 0 ≤ c * fine + f := by positivity
    have hvi : ValidIdx s.shape [c * fine + f] := .cons ⟨hcf, hbnd⟩ .nil
    have ha := rord [c * fine + f] [c, f] hvi hv (by
      rw [rs]; simp [rowMajor, denseDims, addr, s, Arr.shape])
    have hvH : ValidIdx H.shape [(fine / 2 : Nat) + (c * fine + f)] := by
      simp only [Arr.shape, hH, List.map_cons, List.map_nil]
      exact .cons ⟨by omega, by omega⟩ .nil
    have hx := hX _ hvH
    simp only [Heap.get] at hx ⊢
    rw [ha, rb]
    simp only [s, addr, hH] at hx ⊢
    rw [show ((fine / 2 : Nat) : Int) + (c * fine + f) * 1 + 0 =
      0 + (((fine / 2 : Nat) : Int) + (c * fine + f)) * 1 + 0 by ring, hx]
    simp only [List.getD_cons_zero, List.getD_cons_succ]
    congr 3; ring
  have hrwf : r.WF := Flag.wf_of_shape (by rw [rs]; simp)
  have hrl : r.dims.length = 2 := by rw [← Nd.shape_length, rs]; rfl
  have hax : GoodAxes r [0] := ⟨by simp, by simp [hrl]⟩
  obtain ⟨⟨h1, S, g1, g2, g3, g4, g5, g6⟩, g7⟩ := C53_sum (ratOps sqrt) r [0] j1 h _ hax hrwf hrc
    (by rw [rb]; exact hb)
  have hrem : orUnit 1 (remaining [0] r.shape) = [(fine : Int)] := by
    rw [rs]; simp [remaining, orUnit, List.zipIdx]
  rw [hrem] at g2 g7
  -- each sum
  have hsum : ∀ f, 0 ≤ f → f < (fine : Int) →
      (order r.shape [0] [f]).foldl (fun acc j => (ratOps sqrt).addV acc
        (X [(fine / 2 : Nat) + j.getD 0 0 * fine + j.getD 1 0])) (ratOps sqrt).zeroV =
      folded X fine coarse f := by
    intro f f0 f1
    have he := g7 [f] (.cons ⟨f0, f1⟩ .nil)
    have hl : Enumerates r.shape [0] [f]
        ((List.range (coarse - 1)).map fun (c : Nat) => [(c : Int), f]) := by
      refine ⟨List.nodup_range.map (fun a b e => by simpa using e), fun j => ?_⟩
      rw [rs, List.mem_map]
      constructor
      · rintro ⟨c, hc', rfl⟩
        have := List.mem_range.1 hc'
        refine ⟨.cons ⟨by omega, by omega⟩ (.cons ⟨f0, f1⟩ .nil), ?_⟩
        simp [remaining, orUnit, List.zipIdx]
      · rintro ⟨hv, hj⟩
        match j, hv with
        | [c, f'], .cons hc' (.cons hf' .nil) =>
          have : f' = f := by simpa [remaining, orUnit, List.zipIdx] using hj
          subst this
          exact ⟨c.toNat, List.mem_range.2 (by omega), by simp; omega⟩
    have e := foldl_add_sum (fun j => X [(fine / 2 : Nat) + j.getD 0 0 * fine + j.getD 1 0])
      (order r.shape [0] [f]) 0
    rw [zero_add] at e
    simp only [ratOps]
    rw [e, ((enumerates_perm he hl).map _).sum_eq, List.map_map]
    rfl
  have hSc : h1.Contains S (fun i => folded X fine coarse (i.getD 0 0)) := by
    intro idx hv
    rw [g5 idx hv]
    rw [g2] at hv
    match idx, hv with
    | [f], .cons hf' .nil =>
      have := hsum f hf'.1 hf'.2
      beta_reduce
      rw [this]; rfl
  have hSwf : S.WF := Flag.wf_of_shape (by rw [g2]; simp)
  obtain ⟨h2, M, m1, m2, m3, m4, m5, m6⟩ := reduceNew_spec (a := S) (axes := [])
    ⟨by simp, by simp⟩ hSwf _ _ _ j2 h1 _ (plain_visit hSc (by omega) _)
    (fun i => (order S.shape [] i).foldl (fun acc j => maxStep (ratOps sqrt) acc
      (folded X fine coarse (j.getD 0 0))) (ratOps sqrt).lowest) (fun _ _ => rfl)
  rw [Flag.remaining_nil] at m2
  have m2' : M.shape = [1] := m2
  have m1' : Stat.max (ratOps sqrt) S [] j2 h1 = .ok (h2, M) := m1
  obtain ⟨f1, f2, f3⟩ := foldl_max_rat sqrt (fun j => folded X fine coarse (j.getD 0 0))
    (order S.shape [] [0]) (ratOps sqrt).lowest
  have hE := Flag.order_all S
  have hin : ∀ i, 0 ≤ i → i < (fine : Int) → [i] ∈ order S.shape [] [0] := by
    intro i h0 h1
    rw [hE.2, g2, Flag.remaining_nil]
    exact ⟨.cons ⟨h0, h1⟩ .nil, rfl⟩
  have hnn : ∀ i, 0 ≤ folded X fine coarse i := by
    intro i
    refine List.sum_nonneg fun x hx => ?_
    obtain ⟨c, _, rfl⟩ := List.mem_map.1 hx
    exact hpos _
  have hk : ∃ k, 0 ≤ k ∧ k < (fine : Int) ∧ (order S.shape [] [0]).foldl (fun acc j =>
      maxStep (ratOps sqrt) acc (folded X fine coarse (j.getD 0 0))) (ratOps sqrt).lowest =
      folded X fine coarse k := by
    rcases f3 with f3 | ⟨j, hj, f3⟩
    · exfalso
      have := (hnn 0).trans (f2 _ (hin 0 (le_refl _) (by omega)))
      rw [f3] at this
      simp only [ratOps] at this
      norm_num at this
    · have hv := ((hE.2 j).mp hj).1
      rw [g2] at hv
      match j, hv with
      | [k], .cons hk .nil => exact ⟨k, hk.1, hk.2, f3⟩
  obtain ⟨k, k0, k1, hkv⟩ := hk
  have hexp : expandShapes S.shape M.shape = .ok [(fine : Int)] := by
    rw [g2, m2']
    have h1 : Max.max (fine : Int) 1 = fine := by omega
    simp [expandShapes, expandRev, h1]
  obtain ⟨h3, q, b1, b2, b3, b4, b5, b6⟩ := Flag.bin_returns (· / ·) h2 S M j3
    (fun i => folded X fine coarse (i.getD 0 0)) _ [(fine : Int)] hexp (by simp) (by simp)
    (by rw [g2]; exact broadcastsTo_self _)
    (by
      have := (expandShapes_broadcasts hexp (by rw [g2]; simp; omega) (by rw [m2']; simp)).2
      exact this) (by rw [g2]) (by rw [m2']; rfl)
    (Contains.frame hSc (by omega) m6) m5 (by omega) (by omega)
  refine ⟨h3, q, k, ?_, b2, k0, k1, fun f p0 p1 => ⟨?_, ?_⟩⟩
  · unfold fold
    rw [if_neg (by omega)]
    simp only [Arr.shape, hH, List.map_cons, List.map_nil, List.headD_cons, htd, hcc]
    rw [hs, Outcome.bind_ok, hr, Outcome.bind_ok, g1, Outcome.bind_ok]
    simp only []
    rw [m1', Outcome.bind_ok]
    exact b1
  · have := f2 _ (hin f p0 p1)
    rw [hkv] at this
    exact this
  · have := b5 [f] (by rw [b2]; exact .cons ⟨p0, p1⟩ .nil)
    have hb1 : bcIdx S.shape [f] = [f] := by
      rw [g2]; exact bcIdx_self (.cons ⟨p0, p1⟩ .nil)
    have hb2 : bcIdx M.shape [f] = [0] := by rw [m2']; rfl
    simp only [hb1, hb2] at this
    rw [this, hkv]
    rfl

/-- Concrete case for `C95_fold_partial`: two fine channels, three coarse channels, spectrum
1, 2, 3, 4, 5, 6. The folded energies are 2 + 4 and 3 + 5. -/
def six : Heap ℚ := { mem := fun _ => Buf.ofFn 6 (fun i => i + 1), next := 1 }

example : (fun r => (resultAt r [0], resultAt r [1]))
    (fold (ratOps id) (· / ·) 2 6 (dense 0 [6]) (fun _ => 0) (fun _ => 0) (fun _ => 0) six) =
    (some (6 / 8), some 1) := by decide +kernel

example : six.Contains (dense 0 [6]) (fun i => i.headD 0 + 1) ∧
    (dense 0 [6]).dims = [⟨((3 * 2 : Nat) : Int), 1, 0⟩] := by
  refine ⟨fun idx hv => ?_, rfl⟩
  match idx, hv with
  | [i], .cons hi .nil =>
    have : 0 ≤ i ∧ i < 6 := hi
    simp [Heap.get, six, dense, denseDims, addr, Buf.ofFn, this.1, this.2]

/-! ## C96: equalization -/

/-- `equalize_passband_filter(cc, h)` (passband_static_equalize.cpp lines 109-115): what is computed
when the data of the coarse channel is read. The move to another device (line 110) is not modelled. -/
def equalize (divV : V → V → V) (data resp : Arr) (junk : Int → V) (h : Heap V) :
    Outcome (Heap V × Arr) :=
  binOp divV h data resp junk

/-- **C96**: with `T` spectra of `F` channels and a response of `F` values, `F` being neither 1 nor
`T`, every sample is divided by the response at its channel. Missing: `F = T` and `F = 1`, which are
undefined (`C96_square_undefined`). -/
theorem C96_equalize_partial (divV : V → V → V) (data resp : Arr) (T F : Int) (X R : List Int → V)
    (hd : data.shape = [T, F]) (hr : resp.shape = [F]) (hT : 1 ≤ T) (hF : 2 ≤ F) (hTF : F ≠ T)
    (junk : Int → V) (h : Heap V) (hX : h.Contains data X) (hR : h.Contains resp R)
    (hl : data.blk < h.next) (hlr : resp.blk < h.next) :
    ∃ h' r, equalize divV data resp junk h = .ok (h', r) ∧ r.shape = [T, F] ∧
      (∀ t f, 0 ≤ t → t < T → 0 ≤ f → f < F →
        h'.get r [t, f] = some (divV (X [t, f]) (R [f]))) ∧ h.Frame h' := by
  have hexp : expandShapes data.shape resp.shape = .ok [T, F] := by
    rw [hd, hr]
    have h1 : Max.max T 1 = T := by omega
    simp [expandShapes, expandRev, h1]
  obtain ⟨h', r, e1, e2, e3, e4⟩ := C47_binary_partial divV h data resp junk X R [T, F] hexp (by simp)
    (by rw [hd]; simp; omega) (by rw [hr]; simp; omega) (.inl (by rw [hd]))
    (.inr ⟨F, [], hr, by rw [hr]; simp; omega⟩) hX hR hl hlr
  refine ⟨h', r, e1, e2, fun t f t0 t1 f0 f1 => ?_, e4⟩
  have hv : ValidIdx [T, F] [t, f] := .cons ⟨t0, t1⟩ (.cons ⟨f0, f1⟩ .nil)
  have := e3 [t, f] (by rw [e2]; exact hv)
  rw [this, hd, hr]
  dsimp only
  rw [bcIdx_self hv]
  have hF1 : F ≠ 1 := by omega
  simp [bcIdx, hF1]

/-- Equalization works on whole coarse channels only: a response of another length is rejected. -/
theorem C96_other_length_rejected (divV : V → V → V) (data resp : Arr) (T F G : Int)
    (hd : data.shape = [T, F]) (hr : resp.shape = [G]) (hF : F ≠ 1) (hG : G ≠ 1) (hFG : F ≠ G)
    (junk : Int → V) (h : Heap V) :
    equalize divV data resp junk h = .throws .invalidArgument := by
  have hexp : expandShapes data.shape resp.shape = .throws .invalidArgument := by
    rw [hd, hr]
    simp [expandShapes, expandRev, hF, hG, hFG]
  unfold equalize binOp
  rw [hexp]
  rfl

/-- **Violation of C96.** A coarse channel with as many spectra as channels, and a response of one
value, are undefined: the loop that lines up the shapes runs off the end of the shorter one. -/
theorem C96_square_undefined (divV : V → V → V) (data resp : Arr) (T F G : Int)
    (hd : data.shape = [T, F]) (hr : resp.shape = [G]) (hT : 1 ≤ T) (hF : 1 ≤ F)
    (hbad : (F = T ∧ G = F) ∨ G = 1) (junk : Int → V) (h : Heap V) :
    equalize divV data resp junk h = .ub := by
  have hGF : Max.max F G = F := by omega
  have hexp : expandShapes data.shape resp.shape = .ok [T, F] := by
    rw [hd, hr]
    have h1 : Max.max T 1 = T := by omega
    have h2 : ¬ (F ≠ G ∧ F ≠ 1 ∧ G ≠ 1) := by omega
    simp [expandShapes, expandRev, h1, h2, hGF]
  unfold equalize binOp
  rw [hexp, Outcome.bind_ok]
  have hcheck : binCheck data resp = false := by
    have l1 : data.dims.length = 2 := by rw [← Nd.shape_length, hd]; rfl
    have l2 : resp.dims.length = 1 := by rw [← Nd.shape_length, hr]; rfl
    simp [binCheck, l1, l2]
  simp only [hcheck, Bool.false_eq_true, if_false]
  have hout : (alloc h [T, F] junk).2.shape = [T, F] := denseDims_shape [T, F]
  have h1 : ∃ x, bcStrides data.shape data.strides (alloc h [T, F] junk).2.shape = .ok x := by
    rw [hd, hout]; exact ⟨_, by simp [bcStrides]; rfl⟩
  have h2 : ∃ x, bcStrides resp.shape resp.strides (alloc h [T, F] junk).2.shape = .ok x := by
    rw [hr, hout]; exact ⟨_, by simp [bcStrides]; rfl⟩
  have h3 : bcShape data.shape (alloc h [T, F] junk).2.shape = .ok [T, F] := by
    rw [hd, hout]; simp only [bcShape, true_or, if_true]; rfl
  have h4 : bcShape resp.shape (alloc h [T, F] junk).2.shape = .ub := by
    rw [hr, hout]
    have : G = T ∨ G = 1 := by omega
    simp only [bcShape, this, if_true]
    rfl
  obtain ⟨x, h1⟩ := h1
  obtain ⟨y, h2⟩ := h2
  unfold binInto
  rw [h1, h2, h3, h4]
  rfl

/-- Concrete case for `C96_equalize_partial`: two spectra of three channels in one block. -/
def spectra : Heap ℚ :=
  { mem := fun b => if b = 0 then Buf.ofFn 6 (fun i => i + 1) else Buf.ofFn 3 (fun i => i + 2),
    next := 2 }

example : (fun r => (resultAt r [0, 2], resultAt r [1, 0]))
    (equalize (· / ·) (dense 0 [2, 3]) (dense 1 [3]) (fun _ => 0) spectra) =
    (some (3 / 4), some (4 / 2)) := by decide +kernel

end Bliss.Passband
