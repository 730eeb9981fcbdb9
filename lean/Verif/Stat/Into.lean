import Verif.Stat.Props
import Verif.Nd.Props
import Mathlib.Analysis.SpecialFunctions.Pow.Real

/-!
# Reductions into an array the caller supplies (C113)

`sum(a, out, axes)`, `mean(a, out, axes)`, …: `out` may be a slice, of the array that is reduced or
of another one, and its shape is not compared with the shape of the result.
-/

namespace Bliss.Stat

open Bliss.Nd

variable {V A D : Type}

/-! ## Model -/

/-- `sum` into a given array.  `bland/bland/ops/statistical.cpp` lines 369–390,
`bland/bland/ops/cpu/statistical_cpu.cpp` lines 919–1014.  Simplified: the refusal of an output on
another device is in `Dispatch.reduceInto`. -/
def sumInto (o : StatOps V D) (a out : Arr) (axes : List Int) (h : Heap V) : Outcome (Heap V) :=
  reduceInto a out (allAxes a axes) (plainVisit a o.addV) (emit1 out fun acc => .ok acc) o.zeroV h

/-- `mean` into a given array.  `bland/bland/ops/statistical.cpp` lines 65–86,
`bland/bland/ops/cpu/statistical_cpu.cpp` lines 25–120, 241–243. -/
def meanInto (o : StatOps V D) (a out : Arr) (axes : List Int) (h : Heap V) : Outcome (Heap V) :=
  reduceInto a out (allAxes a axes) (plainVisit a (fun acc v => o.add acc (o.toD v)))
    (emit1 out fun acc => .ok (o.toV (o.div acc (o.ofInt (count a axes))))) o.zero h

/-- `stddev` into a given array.  `bland/bland/ops/statistical.cpp` lines 151–173,
`bland/bland/ops/cpu/statistical_cpu.cpp` lines 250–357. -/
def stddevInto (o : StatOps V D) (a out : Arr) (axes : List Int) (h : Heap V) : Outcome (Heap V) :=
  reduceInto a out (allAxes a axes) (plainVisit a (devStep o (count a axes)))
    (emit1 out fun acc => .ok (devFinish o acc)) (o.zero, o.zero) h

/-- `max` into a given array.  `bland/bland/ops/statistical.cpp` lines 42–63,
`bland/bland/ops/cpu/statistical_cpu.cpp` lines 1064–1162. -/
def maxInto (o : StatOps V D) (a out : Arr) (axes : List Int) (h : Heap V) : Outcome (Heap V) :=
  reduceInto a out (allAxes a axes) (plainVisit a (maxStep o)) (emit1 out fun acc => .ok acc)
    o.lowest h

/-- `var` into a given array: `stddev(a, out, axes); return square(out);`, where `square` with one
argument creates a new array.  `bland/bland/ops/statistical.cpp` lines 326–329;
`bland/bland/ops/ops.cpp` lines 302–305. -/
def varInto (o : StatOps V D) (sq : V → V) (a out : Arr) (axes : List Int) (junk : Int → V)
    (h : Heap V) : Outcome (Heap V × Arr) := do
  let h1 ← stddevInto o a out axes h
  unaryOp sq h1 out junk

/-- `var` into a new array.  `bland/bland/ops/statistical.cpp` lines 330–333. -/
def var (o : StatOps V D) (sq : V → V) (a : Arr) (axes : List Int) (junk1 junk2 : Int → V)
    (h : Heap V) : Outcome (Heap V × Arr) := do
  let r ← stddev o a axes junk1 h
  unaryOp sq r.1 r.2 junk2

/-! ## Specification -/

/-- The result has `out`'s shape, and no element of `out` is an element of `a`. -/
structure Fits (a out : Arr) (axes : List Int) : Prop where
  shape : out.shape = orUnit 1 (remaining axes a.shape)
  apart : out.blk = a.blk → ∀ i j, ValidIdx out.shape i → ValidIdx a.shape j →
    addr out.dims i ≠ addr a.dims j

/-! ## Proofs -/

/-- A reduction into a given array that is apart from the input. -/
theorem reduceInto_spec {a out : Arr} {axes : List Int} (hax : GoodAxes a axes) (hwf : a.WF)
    (howf : out.WF) (hdis : out.Distinct) (hfit : Fits a out axes)
    (f : A → V → A) (finish : A → Outcome V) (init : A)
    (h : Heap V) (X : List Int → V) (hX : h.Contains a X) (hmap : h.Mapped out)
    (R : List Int → V)
    (hfin : ∀ i, ValidIdx out.shape i →
      finish ((order a.shape axes i).foldl (fun acc j => f acc (X j)) init) = .ok (R i)) :
    ∃ h', reduceInto a out (allAxes a axes) (plainVisit a f) (emit1 out finish) init h = .ok h' ∧
      h'.next = h.next ∧ h.Updated h' out R := by
  have hsh := hfit.shape
  rw [reduceInto_eq hax hwf howf hsh]
  have hvo : ∀ k < cells (ldOut out), ValidIdx out.shape (unravel (ldOut out) k) :=
    fun k hk => valid_unravel (ldOut_sizes out) hk
  obtain ⟨h2, e1, w⟩ := forLoop_inv (n := cells (ldOut out)) (s := h)
    (body := fun k h => do
      let r ← innerLoop a (redAxes a.dims.length axes) (plainVisit a f h)
        (cells (ldOf a.shape (redAxes a.dims.length axes))) init
        (startIdx a (redAxes a.dims.length axes) k)
      emit1 out finish r.1 (addr out.dims (unravel (ldOut out) k)) h)
    (fun n h2 => Wrote h h2 out.blk n (fun k => addr out.dims (unravel (ldOut out) k))
      (fun k => R (unravel (ldOut out) k)))
    (Wrote.refl _ _ _ _)
    (by
      intro k h2 hk w
      have hv : ∀ j, ValidIdx a.shape j → ∀ acc,
          plainVisit a f h2 acc (addr a.dims j) = .ok (f acc (X j)) := by
        intro j hj acc
        have e := hX j hj
        simp only [Heap.get] at e
        rw [← w.same a.blk (addr a.dims j) (fun e' n hn =>
          hfit.apart e'.symm _ _ (hvo n (by omega)) hj)] at e
        simp only [plainVisit, Heap.load, Buf.load_some e, Outcome.bind_ok, Outcome.pure_eq]
      rw [step_eq hax hsh (plainVisit a f) _ init h2 _ hv hk]
      simp only [emit1, hfin _ (hvo k hk), Outcome.bind_ok]
      exact w.store (hmap _ (hvo k hk))
        (fun j hj he => by
          have := hdis _ _ (hvo j (by omega)) (hvo k hk) he
          have := unravel_inj (by omega) hk this
          omega))
  exact ⟨h2, e1, w.next, Wrote.updated (ldOut_sizes out) (A := R) w⟩

/-- **C113 (into a given array)**, `_partial`: if `out`, an array or slice of any layout, has the
shape of the result and shares no element with the input, `sum`, `mean`, `stddev` and `max` store
in `out` what they would return in a new array, and change nothing else.
Full property: for every `out`, or the call is refused; missing, because neither shape nor overlap
is looked at (`C113_overlap`, `C113_wrong_shape`). -/
theorem C113_into_partial (o : StatOps V D) (a out : Arr) (axes : List Int) (h : Heap V)
    (X : List Int → V) (hax : GoodAxes a axes) (hwf : a.WF) (hX : h.Contains a X)
    (hb : a.blk < h.next)
    (howf : out.WF) (hdis : out.Distinct) (hmap : h.Mapped out) (hfit : Fits a out axes)
    (junk : Int → V) :
    (∃ R h', Returns h (sum o a axes junk h) out.shape R ∧
      sumInto o a out axes h = .ok h' ∧ h'.next = h.next ∧ h.Updated h' out R) ∧
    (∃ R h', Returns h (mean o a axes junk h) out.shape R ∧
      meanInto o a out axes h = .ok h' ∧ h'.next = h.next ∧ h.Updated h' out R) ∧
    (∃ R h', Returns h (stddev o a axes junk h) out.shape R ∧
      stddevInto o a out axes h = .ok h' ∧ h'.next = h.next ∧ h.Updated h' out R) ∧
    (∃ R h', Returns h (max o a axes junk h) out.shape R ∧
      maxInto o a out axes h = .ok h' ∧ h'.next = h.next ∧ h.Updated h' out R) := by
  have hs := hfit.shape
  have key : ∀ {B : Type} (f : B → V → B) (finish : B → V) (init : B),
      ∃ R h', Returns h (reduceNew a axes (plainVisit a f) (fun acc => .ok (finish acc)) init junk h)
        out.shape R ∧
      reduceInto a out (allAxes a axes) (plainVisit a f) (emit1 out fun acc => .ok (finish acc))
        init h = .ok h' ∧ h'.next = h.next ∧ h.Updated h' out R := by
    intro B f finish init
    obtain ⟨h', e1, e2, e3⟩ := reduceInto_spec hax hwf howf hdis hfit f (fun acc => .ok (finish acc))
      init h X hX hmap
      (fun i => finish ((order a.shape axes i).foldl (fun acc j => f acc (X j)) init))
      (fun _ _ => rfl)
    refine ⟨_, h', ?_, e1, e2, e3⟩
    rw [hs]
    exact reduceNew_spec hax hwf _ _ _ junk h _ (plain_visit hX hb _) _ (fun _ _ => rfl)
  exact ⟨key o.addV id o.zeroV, key _ _ _, key _ _ _, key (maxStep o) id o.lowest⟩

-- the column sums of a 2×3 array, stored in a reversed, strided slice of another array
def outRev : Arr := ⟨1, [⟨3, -2, 5⟩]⟩
def heapPair (l m : List ℚ) : Heap ℚ :=
  ⟨fun b i => if i < 0 then none else if b = 0 then l[i.toNat]? else if b = 1 then m[i.toNat]? else none, 2⟩
example : Fits arr23 outRev [0] ∧ outRev.WF ∧ outRev.Distinct ∧
    (heapPair [1, 2, 3, 4, 5, 6] [0, 0, 0, 0, 0, 0, 0]).Mapped outRev := by
  have hv : ∀ i, ValidIdx outRev.shape i → i = [0] ∨ i = [1] ∨ i = [2] := by
    intro i hi
    cases hi with
    | cons h1 h2 =>
      cases h2
      have : ∀ x : Int, 0 ≤ x ∧ x < 3 → x = 0 ∨ x = 1 ∨ x = 2 := by omega
      rcases this _ h1 with rfl | rfl | rfl <;> simp
  refine ⟨⟨by decide, fun e => absurd e (by decide)⟩, ?_, ?_, ?_⟩
  · intro d hd
    simp only [outRev, List.mem_singleton] at hd
    rw [hd]; decide
  · intro i j hi hj
    rcases hv i hi with rfl | rfl | rfl <;> rcases hv j hj with rfl | rfl | rfl <;> decide
  · intro i hi
    rcases hv i hi with rfl | rfl | rfl <;> decide +kernel
example : (heapAt (sumInto (ratOps id) arr23 outRev [0]
      (heapPair [1, 2, 3, 4, 5, 6] [0, 0, 0, 0, 0, 0, 0])) 1 5,
    heapAt (sumInto (ratOps id) arr23 outRev [0]
      (heapPair [1, 2, 3, 4, 5, 6] [0, 0, 0, 0, 0, 0, 0])) 1 1) = (some 5, some 9) := by
  decide +kernel

/-- **Violation of C113.** Column sums of `[[1, 2], [3, 4]]` stored in its second column: the first
sum, 4, overwrites the 2 before it is read, and the second sum is 8 instead of 6. -/
theorem C113_overlap :
    heapAt (sumInto (ratOps id) ⟨0, [⟨2, 2, 0⟩, ⟨2, 1, 0⟩]⟩ ⟨0, [⟨2, 2, 1⟩]⟩ [0]
      (heap1 [1, 2, 3, 4])) 0 3 = some 8 ∧
    resultAt (sum (ratOps id) ⟨0, [⟨2, 2, 0⟩, ⟨2, 1, 0⟩]⟩ [0] (fun _ => 0)
      (heap1 [1, 2, 3, 4])) [1] = some 6 := by
  decide +kernel

/-- **Violation of C113.** An output of another shape is not refused: the two row sums of
`[[1, 2], [3, 4]]` in an output of three elements start again from the first row, and an output of
one element receives only the first. -/
theorem C113_wrong_shape :
    (let r := sumInto (ratOps id) ⟨0, [⟨2, 2, 0⟩, ⟨2, 1, 0⟩]⟩ ⟨1, [⟨3, 1, 0⟩]⟩ [1]
      (heapPair [1, 2, 3, 4] [0, 0, 0])
     heapAt r 1 0 = some 3 ∧ heapAt r 1 1 = some 7 ∧ heapAt r 1 2 = some 3) ∧
    heapAt (sumInto (ratOps id) ⟨0, [⟨2, 2, 0⟩, ⟨2, 1, 0⟩]⟩ ⟨1, [⟨1, 1, 0⟩]⟩ [1]
      (heapPair [1, 2, 3, 4] [0])) 1 0 = some 3 := by
  decide +kernel

/-! ### Variance -/

/-- **C113 (variance)**. `var` into a new array gives the square of each standard deviation. -/
theorem C113_var_new (o : StatOps V D) (sq : V → V) (a : Arr) (axes : List Int) (h : Heap V)
    (X : List Int → V) (hax : GoodAxes a axes) (hwf : a.WF) (hX : h.Contains a X)
    (hb : a.blk < h.next) (junk1 junk2 : Int → V) :
    ∃ R h' r, Returns h (stddev o a axes junk1 h) (orUnit 1 (remaining axes a.shape)) R ∧
      var o sq a axes junk1 junk2 h = .ok (h', r) ∧
      r.shape = orUnit 1 (remaining axes a.shape) ∧ h'.Contains r (fun i => sq (R i)) ∧
      h.Frame h' := by
  obtain ⟨hr, -⟩ := C53_stddev o a axes junk1 h X hax hwf hX hb
  generalize (fun i => devFinish o ((order a.shape axes i).foldl
        (fun acc j => devStep o (order a.shape axes i).length acc (X j)) (o.zero, o.zero))) = R at hr
  refine ⟨R, ?_⟩
  obtain ⟨h1, s, e1, e2, e3, e4, e5, e6⟩ := id hr
  have hswf : s.WF := by
    intro d hd
    exact valid_nonneg hax hwf _ (by rw [← e2]; exact List.mem_map_of_mem hd)
  obtain ⟨h2, r, f1, f2, f3, f4, f5⟩ := C50_unary_new sq h1 s junk2 _ hswf e5 (by omega)
  refine ⟨h2, r, hr, ?_, f2.trans e2, f4, ?_⟩
  · unfold var
    rw [e1]
    exact f1
  · intro b hb
    rw [f5 b (by omega), e6 b hb]

/-- **Violation of C113.** `var` into a given array leaves the *standard deviation* there; the
variance is in a new array that is returned. -/
theorem C113_var_into (o : StatOps V D) (sq : V → V) (a out : Arr) (axes : List Int) (h : Heap V)
    (X : List Int → V) (hax : GoodAxes a axes) (hwf : a.WF) (hX : h.Contains a X)
    (hb : a.blk < h.next) (howf : out.WF) (hdis : out.Distinct) (hmap : h.Mapped out)
    (hob : out.blk < h.next) (hfit : Fits a out axes) (junk1 junk2 : Int → V) :
    ∃ R h' r, Returns h (stddev o a axes junk1 h) out.shape R ∧
      varInto o sq a out axes junk2 h = .ok (h', r) ∧ r.shape = out.shape ∧ r.blk ≠ out.blk ∧
      h'.Contains out R ∧ h'.Contains r (fun i => sq (R i)) := by
  obtain ⟨-, -, ⟨R, h1, hr, e1, e2, e3⟩, -⟩ :=
    C113_into_partial o a out axes h X hax hwf hX hb howf hdis hmap hfit junk1
  obtain ⟨h2, r, f1, f2, f3, f4, f5⟩ := C50_unary_new sq h1 out junk2 R howf e3.1 (by omega)
  refine ⟨R, h2, r, hr, ?_, f2, by omega, Contains.frame e3.1 (by omega) f5, f4⟩
  unfold varInto
  rw [e1]
  exact f1

end Bliss.Stat
