import Verif.Stat.Props
import Verif.Misc.Elements
import Mathlib.Algebra.BigOperators.Group.List.Basic
import Mathlib.Algebra.Order.BigOperators.Group.List

/-!
# Statistics of integer arrays (C74)

For integer data the kernels of bland/bland/ops/cpu/statistical_cpu.cpp accumulate in the type of the
data (`accumulator_type` is `out_datatype`, lines 54-55), so overflow is part of the result. This file
models `sum`, `mean`, `stddev`, `masked_mean` and `masked_stddev` for arrays of `int32_t`, `int64_t`,
`uint8_t` and `uint32_t` whose result has the type of the data.
-/

namespace Bliss.Stat

open Bliss.Nd Bliss.Elements
open Bliss.Dispatch (Elem)

/-! ## Model -/

/-- The value of an operation whose exact result is `n`, computed in the promoted type of `t`:
unsigned results wrap, signed overflow is undefined. -/
def inType (t : Elem) (n : Int) : Outcome Int :=
  let p := common t t
  if p = .u32 then .ok (wrap p n) else if lo p ≤ n ∧ n ≤ hi p then .ok n else .ub

/-- `acc += v`: the sum in the promoted type, converted back. -/
def addTo (t : Elem) (acc v : Int) : Outcome Int := do
  let s ← inType t (acc + v)
  pure (wrap t s)

/-- `accumulator_type scale = 1.0 / static_cast<accumulator_type>(m)`
(`statistical_cpu.cpp` lines 57 and 283): a `double` converted to the integer type; undefined for a
divisor of 0. -/
def scaleOf (t : Elem) (m : Int) : Outcome Int :=
  if wrap t m = 0 then .ub else .ok (Int.tdiv 1 (wrap t m))

/-- `sum` (`statistical_cpu.cpp` lines 919-1010). In this file the accumulator is an outcome: overflow
shows when the result is stored. -/
def sumInt (t : Elem) (a : Arr) (axes : List Int) (junk : Int → Int) (h : Heap Int) :
    Outcome (Heap Int × Arr) :=
  reduceNew a axes (plainVisit a fun (acc : Outcome Int) v => acc.bind (addTo t · v)) id (.ok 0) junk h

/-- `mean` (`statistical_cpu.cpp` lines 25-120): `scale` is not used, but computed. The division takes
place in `int64_t`. -/
def meanInt (t : Elem) (a : Arr) (axes : List Int) (junk : Int → Int) (h : Heap Int) :
    Outcome (Heap Int × Arr) := do
  let _ ← scaleOf t (count a axes - 1)
  reduceNew a axes (plainVisit a fun (acc : Outcome Int) v => acc.bind (addTo t · v))
    (fun acc => do
      let s ← acc
      if count a axes = 0 then .ub else pure (wrap t (s.tdiv (count a axes)))) (.ok 0) junk h

/-- `static_cast<t>(std::sqrt(v))` for a `v` that is not negative; `root` drops the fraction of the
square root in `double`. -/
def rootTo (root : Int → Int) (t : Elem) (v : Int) : Outcome Int :=
  if v < 0 then .ub else if lo t ≤ root v ∧ root v ≤ hi t then .ok (root v) else .ub

/-- One element of `stddev` (`statistical_cpu.cpp` lines 300-302). -/
def devStepInt (t : Elem) (scale : Int) (acc : Int × Int) (x : Int) : Outcome (Int × Int) := do
  let p ← inType t (x * scale)
  let s1 ← addTo t acc.1 p
  let q ← inType t (x * x)
  let r ← inType t (q * scale)
  let s2 ← addTo t acc.2 r
  pure (s1, s2)

/-- The result of `stddev` (`statistical_cpu.cpp` lines 322-323). -/
def devFinishInt (root : Int → Int) (t : Elem) (acc : Int × Int) : Outcome Int := do
  let m ← inType t (acc.1 * acc.1)
  let d ← inType t (acc.2 - m)
  rootTo root t (Max.max 0 (wrap t d))

/-- `stddev` (`statistical_cpu.cpp` lines 250-353). -/
def stddevInt (root : Int → Int) (t : Elem) (a : Arr) (axes : List Int) (junk : Int → Int)
    (h : Heap Int) : Outcome (Heap Int × Arr) := do
  let scale ← scaleOf t (count a axes)
  reduceNew a axes (plainVisit a fun (acc : Outcome (Int × Int)) v => acc.bind (devStepInt t scale · v))
    (fun acc => acc.bind (devFinishInt root t)) (.ok (0, 0)) junk h

/-- `masked_mean` (`statistical_cpu.cpp` lines 122-239). -/
def maskedMeanInt (t : Elem) (a mask : Arr) (hm : Heap UInt8) (axes : List Int) (junk : Int → Int)
    (h : Heap Int) : Outcome (Heap Int × Arr) :=
  if a.shape = mask.shape then
    reduceNew a axes
      (maskedVisit a mask hm fun (acc : Outcome Int × Int) v => (acc.1.bind (addTo t · v), acc.2 + 1))
      (fun acc => do
        let s ← acc.1
        if acc.2 = 0 then .throws .runtimeError else pure (wrap t (s.tdiv acc.2))) (.ok 0, 0) junk h
  else .throws .runtimeError

/-- One element of `masked_stddev` (`statistical_cpu.cpp` lines 428-433). -/
def mdevStepInt (t : Elem) (acc : Int × Int) (x : Int) : Outcome (Int × Int) := do
  let s1 ← addTo t acc.1 x
  let q ← inType t (x * x)
  let s2 ← addTo t acc.2 q
  pure (s1, s2)

/-- The result of `masked_stddev` for `n` elements (`statistical_cpu.cpp` lines 453-457): `mean` and
the squares are `int64_t`, the root of a negative number is not a number. -/
def mdevFinishInt (root : Int → Int) (t : Elem) (n : Int) (acc : Int × Int) : Outcome Int := do
  let m ← inType .i64 (acc.1.tdiv n * acc.1.tdiv n)
  let d ← inType .i64 (acc.2.tdiv n - m)
  rootTo root t d

/-- `masked_stddev` (`statistical_cpu.cpp` lines 359-488). -/
def maskedStddevInt (root : Int → Int) (t : Elem) (a mask : Arr) (hm : Heap UInt8) (axes : List Int)
    (junk : Int → Int) (h : Heap Int) : Outcome (Heap Int × Arr) :=
  if a.shape = mask.shape then do
    let _ ← scaleOf t (count a axes)
    reduceNew a axes
      (maskedVisit a mask hm fun (acc : Outcome (Int × Int) × Int) v =>
        (acc.1.bind (mdevStepInt t · v), acc.2 + 1))
      (fun acc => do
        let s ← acc.1
        if acc.2 = 0 then .throws .runtimeError else mdevFinishInt root t acc.2 s)
      (.ok (0, 0), 0) junk h
  else .throws .runtimeError

/-! ## Lemmas -/

variable {A V : Type}

theorem forLoop_ub {σ : Type} {n m : Nat} {body : Nat → σ → Outcome σ} {s s' : σ}
    (hm : m < n) (h1 : forLoop m body s = .ok s') (h2 : body m s' = .ub) :
    forLoop n body s = .ub := by
  induction n with
  | zero => omega
  | succ n ih =>
    rw [forLoop_succ]
    by_cases e' : m = n
    · subst e'; rw [h1]; exact h2
    · rw [ih (by omega)]; rfl

/-- A reduction one of whose results is undefined is undefined. -/
theorem reduceNew_ub {a : Arr} {axes : List Int} (hax : GoodAxes a axes) (hwf : a.WF)
    (visit : Heap V → A → Int → Outcome A) (finish : A → Outcome V) (init : A) (junk : Int → V)
    (h : Heap V) (g : A → List Int → A)
    (hv : ∀ h', h.Frame h' → ∀ j, ValidIdx a.shape j → ∀ acc,
      visit h' acc (addr a.dims j) = .ok (g acc j))
    (hfin : ∀ o, finish ((order a.shape axes o).foldl g init) = .ub ∨
      ∃ v, finish ((order a.shape axes o).foldl g init) = .ok v)
    (o : List Int) (ho : ValidIdx (orUnit 1 (remaining axes a.shape)) o)
    (hbad : finish ((order a.shape axes o).foldl g init) = .ub) :
    reduceNew a axes visit finish init junk h = .ub := by
  have hal := alloc_props h (outShape a axes) junk
    (by rw [outShape_eq hax]; exact valid_nonneg hax hwf)
  simp only at hal
  obtain ⟨hsh, howf, hdis, hmap, hblk, hnext, hframe⟩ := hal
  replace hsh := hsh.trans (outShape_eq hax)
  unfold reduceNew
  generalize alloc h (outShape a axes) junk = r at *
  obtain ⟨h1, out⟩ := r
  simp only at *
  rw [reduceInto_eq hax hwf howf hsh]
  have hbox : InBox (ldOut out) o := by rw [inBox_iff, ldOut_sizes, hsh]; exact ho
  have hex : ∃ k, k < cells (ldOut out) ∧
      finish ((order a.shape axes (unravel (ldOut out) k)).foldl g init) = .ub :=
    ⟨ravel (ldOut out) o, ravel_lt hbox, by rw [unravel_ravel hbox]; exact hbad⟩
  classical
  have hmin : ∀ j < Nat.find hex, ∃ v,
      finish ((order a.shape axes (unravel (ldOut out) j)).foldl g init) = .ok v := by
    intro j hj
    rcases hfin (unravel (ldOut out) j) with h | h
    · exact absurd ⟨by have := (Nat.find_spec hex).1; omega, h⟩ (Nat.find_min hex hj)
    · exact h
  obtain ⟨hm, hbad'⟩ := Nat.find_spec hex
  generalize Nat.find hex = m at hm hbad' hmin
  have hR : ∃ R : Nat → V, ∀ j < m,
      finish ((order a.shape axes (unravel (ldOut out) j)).foldl g init) = .ok (R j) := by
    refine ⟨fun j => if hj : j < m then (hmin j hj).choose else junk 0, fun j hj => ?_⟩
    simp only [dif_pos hj]
    exact (hmin j hj).choose_spec
  obtain ⟨R, hR⟩ := hR
  obtain ⟨h2, e1, w⟩ := forLoop_inv (n := m) (s := h1)
    (body := fun k h => do
      let r ← innerLoop a (redAxes a.dims.length axes) (visit h)
        (cells (ldOf a.shape (redAxes a.dims.length axes))) init
        (startIdx a (redAxes a.dims.length axes) k)
      emit1 out finish r.1 (addr out.dims (unravel (ldOut out) k)) h)
    (fun n h2 => Wrote h1 h2 out.blk n (fun k => addr out.dims (unravel (ldOut out) k)) R)
    (Wrote.refl _ _ _ _)
    (by
      intro k h2 hk w
      have hfr : h.Frame h2 := by
        intro b hb
        rw [← hframe b hb]
        funext i
        exact w.same b i (fun e => by omega)
      have hk' : k < cells (ldOut out) := by omega
      rw [step_eq hax hsh visit _ init h2 g (hv h2 hfr) hk']
      simp only [emit1, hR k hk, Outcome.bind_ok]
      exact w.store (hmap _ (valid_unravel (ldOut_sizes out) hk'))
        (fun j hj he => by
          have := hdis _ _ (valid_unravel (ldOut_sizes out) (by omega : j < cells (ldOut out)))
            (valid_unravel (ldOut_sizes out) hk') he
          have := unravel_inj (by omega) hk' this
          omega))
  have hfr : h.Frame h2 := by
    intro b hb
    rw [← hframe b hb]
    funext i
    exact w.same b i (fun e => by omega)
  rw [forLoop_ub hm e1 (by
    rw [step_eq hax hsh visit _ init h2 g (hv h2 hfr) hm]
    simp only [emit1, hbad']
    rfl)]
  rfl

theorem inType_ok {t : Elem} (ht : t ≠ .f32) {n : Int} (h : lo t ≤ n ∧ n ≤ hi t) :
    inType t n = .ok n := by
  cases t <;> simp_all [inType, common, lo, hi, wrap, bits] <;> omega

theorem inType_u32 (n : Int) : inType .u32 n = .ok (wrap .u32 n) := by simp [inType, common]

theorem addTo_ok {t : Elem} (ht : t ≠ .f32) {acc v : Int} (h : lo t ≤ acc + v ∧ acc + v ≤ hi t) :
    addTo t acc v = .ok (acc + v) := by
  rw [addTo, inType_ok ht h, Outcome.bind_ok, wrap_eq t ht h, Outcome.pure_eq]

/-- Unsigned accumulation wraps. -/
theorem addTo_unsigned {t : Elem} (ht : t = .u8 ∨ t = .u32) {acc v : Int}
    (ha : lo t ≤ acc ∧ acc ≤ hi t) (hv : lo t ≤ v ∧ v ≤ hi t) :
    addTo t acc v = .ok (wrap t (acc + v)) := by
  rcases ht with rfl | rfl
  · have : inType .u8 (acc + v) = .ok (acc + v) := by
      simp [inType, common, lo, hi] at *
      omega
    rw [addTo, this, Outcome.bind_ok, Outcome.pure_eq]
  · rw [addTo, inType_u32, Outcome.bind_ok, Outcome.pure_eq, wrap_wrap _ _ le_rfl]

theorem fold_ok {β : Type} (X : List Int → Int) (f : β → Int → Outcome β) (g : β → Int → β)
    (P : β → Prop) (l : List (List Int)) (b : β) (hb : P b)
    (hf : ∀ b, P b → ∀ j ∈ l, f b (X j) = .ok (g b (X j)) ∧ P (g b (X j))) :
    l.foldl (fun (acc : Outcome β) j => acc.bind (f · (X j))) (.ok b) =
      .ok (l.foldl (fun acc j => g acc (X j)) b) ∧ P (l.foldl (fun acc j => g acc (X j)) b) := by
  induction l generalizing b with
  | nil => exact ⟨rfl, hb⟩
  | cons j l ih =>
    obtain ⟨h1, h2⟩ := hf b hb j (by simp)
    simp only [List.foldl_cons]
    rw [show (Outcome.ok b).bind (f · (X j)) = f b (X j) from rfl, h1]
    exact ih _ h2 fun b' hb' j' hj' => hf b' hb' j' (by simp [hj'])

theorem foldl_sum (X : List Int → Int) (l : List (List Int)) (x : Int) :
    l.foldl (fun acc j => acc + X j) x = x + (l.map X).sum := by
  induction l generalizing x with
  | nil => simp
  | cons a l ih => simp only [List.foldl_cons, ih, List.map_cons, List.sum_cons]; ring

/-- Accumulating numbers whose magnitudes add up to at most `hi t`. -/
theorem fold_small {t : Elem} (ht : t ≠ .f32) (X : List Int → Int) (l : List (List Int)) (b : Int)
    (hu : t = .u8 ∨ t = .u32 → 0 ≤ b ∧ ∀ j ∈ l, 0 ≤ X j)
    (hs : |b| + (l.map fun j => |X j|).sum ≤ hi t) :
    l.foldl (fun (acc : Outcome Int) j => acc.bind (addTo t · (X j))) (.ok b) =
      .ok (b + (l.map X).sum) := by
  induction l generalizing b with
  | nil => simp
  | cons j l ih =>
    simp only [List.map_cons, List.sum_cons] at hs
    have hn : 0 ≤ (l.map fun j => |X j|).sum := List.sum_nonneg (by simp +contextual)
    have h1 := abs_add_le b (X j)
    have h2 := le_abs_self (b + X j)
    have h3 := neg_abs_le (b + X j)
    have hr : lo t ≤ b + X j ∧ b + X j ≤ hi t := by
      refine ⟨?_, by omega⟩
      by_cases h : t = .u8 ∨ t = .u32
      · have := hu h
        have hx := this.2 j (by simp)
        rcases h with rfl | rfl <;> simp [lo] <;> omega
      · cases t <;> simp_all [lo, hi] <;> omega
    simp only [List.foldl_cons]
    rw [show (Outcome.ok b).bind (addTo t · (X j)) = addTo t b (X j) from rfl, addTo_ok ht hr,
      ih (b + X j) (fun h => ⟨by have := hu h; have := this.2 j (by simp); omega,
        fun j' hj' => (hu h).2 j' (by simp [hj'])⟩) (by omega)]
    simp only [List.map_cons, List.sum_cons]
    congr 1; ring

theorem fold_unsigned {t : Elem} (ht : t = .u8 ∨ t = .u32) (X : List Int → Int)
    (l : List (List Int)) (b : Int) (hb : lo t ≤ b ∧ b ≤ hi t)
    (hX : ∀ j ∈ l, lo t ≤ X j ∧ X j ≤ hi t) :
    l.foldl (fun (acc : Outcome Int) j => acc.bind (addTo t · (X j))) (.ok b) =
      .ok (wrap t (b + (l.map X).sum)) := by
  have ht' : t ≠ .f32 := by rcases ht with rfl | rfl <;> simp
  induction l generalizing b with
  | nil => simp [wrap_eq t ht' hb]
  | cons j l ih =>
    simp only [List.foldl_cons]
    rw [show (Outcome.ok b).bind (addTo t · (X j)) = addTo t b (X j) from rfl,
      addTo_unsigned ht hb (hX j (by simp)), ih _ (wrap_range t ht' _)
        (fun j' hj' => hX j' (by simp [hj']))]
    simp only [List.map_cons, List.sum_cons]
    congr 1
    refine wrap_congr t (((wrap_modEq t _).add_right _).trans ?_)
    rw [add_assoc]


theorem wrap_unsigned {t : Elem} (ht : t = .u8 ∨ t = .u32) (n : Int) : wrap t n = n % 2 ^ bits t := by
  rcases ht with rfl | rfl <;> simp [wrap, lo, bits]

theorem fold_ub {β : Type} (X : List Int → Int) (f : β → Int → Outcome β) (l : List (List Int)) :
    l.foldl (fun (acc : Outcome β) j => acc.bind (f · (X j))) .ub = .ub := by
  induction l with
  | nil => rfl
  | cons j l ih => exact ih

theorem sum_le_abs (X : List Int → Int) (l : List (List Int)) :
    |(l.map X).sum| ≤ (l.map fun j => |X j|).sum := by
  induction l with
  | nil => simp
  | cons j l ih =>
    simp only [List.map_cons, List.sum_cons]
    have := abs_add_le (X j) (l.map X).sum
    omega

theorem sum_in_range {t : Elem} (ht : t ≠ .f32) (X : List Int → Int) (l : List (List Int))
    (hX : ∀ j ∈ l, lo t ≤ X j ∧ X j ≤ hi t) (hs : (l.map fun j => |X j|).sum ≤ hi t) :
    lo t ≤ (l.map X).sum ∧ (l.map X).sum ≤ hi t := by
  have h := sum_le_abs X l
  have h1 := le_abs_self (l.map X).sum
  have h2 := neg_abs_le (l.map X).sum
  refine ⟨?_, by omega⟩
  by_cases hu : t = .u8 ∨ t = .u32
  · have : 0 ≤ (l.map X).sum := List.sum_nonneg (by
      intro x hx
      obtain ⟨j, hj, rfl⟩ := List.mem_map.1 hx
      have := (hX j hj).1
      rcases hu with rfl | rfl <;> simpa [lo] using this)
    rcases hu with rfl | rfl <;> simpa [lo] using this
  · cases t <;> simp_all [lo, hi] <;> omega

/-- A quotient by a count lies between 0 and the dividend. -/
theorem tdiv_range {t : Elem} {s n : Int} (hn : 0 ≤ n) (h : lo t ≤ s ∧ s ≤ hi t) (ht : t ≠ .f32) :
    lo t ≤ s.tdiv n ∧ s.tdiv n ≤ hi t := by
  have h1 : (s.tdiv n).natAbs ≤ s.natAbs := by
    rw [Int.natAbs_tdiv]; exact Nat.div_le_self _ _
  have h2 : 0 ≤ s → 0 ≤ s.tdiv n := fun h => Int.tdiv_nonneg h hn
  have h3 : s ≤ 0 → s.tdiv n ≤ 0 := fun h => by
    have := Int.tdiv_nonneg (a := -s) (b := n) (by omega) hn
    rw [Int.neg_tdiv] at this
    omega
  have h4 : lo t ≤ 0 ∧ 0 ≤ hi t := by cases t <;> simp_all [lo, hi]
  omega

/-- An outcome that is not an exception. -/
def NoThrow {α : Type} (x : Outcome α) : Prop := x = .ub ∨ ∃ v, x = .ok v

theorem NoThrow.bind {α β : Type} {x : Outcome α} {f : α → Outcome β} (hx : NoThrow x)
    (hf : ∀ v, NoThrow (f v)) : NoThrow (x >>= f) := by
  rcases hx with rfl | ⟨v, rfl⟩
  · exact Or.inl rfl
  · exact hf v

theorem NoThrow.pure {α : Type} (v : α) : NoThrow (pure v : Outcome α) := Or.inr ⟨v, rfl⟩

theorem noThrow_inType (t : Elem) (n : Int) : NoThrow (inType t n) := by
  simp only [inType]
  split
  · exact Or.inr ⟨_, rfl⟩
  · split
    · exact Or.inr ⟨_, rfl⟩
    · exact Or.inl rfl

theorem noThrow_addTo (t : Elem) (x y : Int) : NoThrow (addTo t x y) :=
  (noThrow_inType _ _).bind fun _ => .pure _

theorem noThrow_rootTo (root : Int → Int) (t : Elem) (v : Int) : NoThrow (rootTo root t v) := by
  simp only [rootTo]
  split
  · exact Or.inl rfl
  · split
    · exact Or.inr ⟨_, rfl⟩
    · exact Or.inl rfl

theorem noThrow_devFinish (root : Int → Int) (t : Elem) (acc : Int × Int) :
    NoThrow (devFinishInt root t acc) :=
  (noThrow_inType _ _).bind fun _ => (noThrow_inType _ _).bind fun _ => noThrow_rootTo _ _ _

theorem noThrow_devStep (t : Elem) (scale : Int) (acc : Int × Int) (x : Int) :
    NoThrow (devStepInt t scale acc x) :=
  (noThrow_inType _ _).bind fun _ => (noThrow_addTo _ _ _).bind fun _ =>
    (noThrow_inType _ _).bind fun _ => (noThrow_inType _ _).bind fun _ =>
      (noThrow_addTo _ _ _).bind fun _ => .pure _

theorem noThrow_fold {β : Type} (X : List Int → Int) (f : β → Int → Outcome β)
    (hf : ∀ b x, NoThrow (f b x)) (l : List (List Int)) (b : Outcome β) (hb : NoThrow b) :
    NoThrow (l.foldl (fun (acc : Outcome β) j => acc.bind (f · (X j))) b) := by
  induction l generalizing b with
  | nil => exact hb
  | cons j l ih => exact ih _ (NoThrow.bind hb fun v => hf v _)

/-- One undefined step makes the whole accumulation undefined. -/
theorem fold_bad {β : Type} (X : List Int → Int) (f : β → Int → Outcome β)
    (hf : ∀ b x, NoThrow (f b x)) (l : List (List Int)) (b : Outcome β) (hb : NoThrow b)
    (j : List Int) (hj : j ∈ l) (hbad : ∀ b, f b (X j) = .ub) :
    l.foldl (fun (acc : Outcome β) j => acc.bind (f · (X j))) b = .ub := by
  obtain ⟨l1, l2, rfl⟩ := List.append_of_mem hj
  rw [List.foldl_append, List.foldl_cons]
  rcases noThrow_fold X f hf l1 b hb with h | ⟨v, h⟩
  · rw [h]; exact fold_ub X f l2
  · rw [h, show (Outcome.ok v).bind (f · (X j)) = f v (X j) from rfl, hbad]; exact fold_ub X f l2

/-- The square of an element that does not fit its signed type. -/
theorem devStep_square_ub {t : Elem} (ht : t = .i32 ∨ t = .i64) (scale : Int) (acc : Int × Int)
    {x : Int} (hx : hi t < x * x) : devStepInt t scale acc x = .ub := by
  have hq : inType t (x * x) = .ub := by
    rcases ht with rfl | rfl <;> simp [inType, common, lo, hi] at * <;> omega
  rw [devStepInt]
  rcases noThrow_inType t (x * scale) with h | ⟨v, h⟩
  · rw [h]; rfl
  · rw [h, Outcome.bind_ok]
    rcases noThrow_addTo t acc.1 v with h' | ⟨w, h'⟩
    · rw [h']; rfl
    · rw [h', Outcome.bind_ok, hq]; rfl

/-- The result element an element belongs to. -/
theorem valid_remaining {a : Arr} {axes j : List Int} (hax : GoodAxes a axes)
    (hj : ValidIdx a.shape j) :
    ValidIdx (orUnit 1 (remaining axes a.shape)) (orUnit 0 (remaining axes j)) := by
  have hl : j.length = a.shape.length := hj.length_eq
  rw [remaining_eq hax.2 _ (shape_length a), remaining_eq hax.2 j (by rw [hl, shape_length])]
  by_cases hk : keptAxes a.dims.length (redAxes a.dims.length axes) = []
  · rw [hk]; simp [orUnit, ValidIdx]
  · rw [orUnit, if_neg (by simpa using hk), orUnit, if_neg (by simpa using hk), ValidIdx,
      List.forall₂_map_left_iff, List.forall₂_map_right_iff, List.forall₂_same]
    intro d hd
    have hd' : d < a.shape.length := by rw [shape_length]; exact ((mem_keptAxes _ _ _).1 hd).1
    have := hj.get (i := d) hd' (by omega)
    simpa [List.getD, hd', hl ▸ hd'] using this

theorem two_mul_sum_le (X : List Int → Int) (x : Int) (l : List (List Int)) :
    2 * x * (l.map X).sum ≤ l.length * x ^ 2 + (l.map fun j => X j ^ 2).sum := by
  induction l with
  | nil => simp
  | cons j l ih =>
    simp only [List.map_cons, List.sum_cons, List.length_cons]
    push_cast
    nlinarith [sq_nonneg (x - X j)]

theorem sq_sum_le (X : List Int → Int) (l : List (List Int)) :
    (l.map X).sum ^ 2 ≤ l.length * (l.map fun j => X j ^ 2).sum := by
  induction l with
  | nil => simp
  | cons j l ih =>
    have := two_mul_sum_le X (X j) l
    simp only [List.map_cons, List.sum_cons, List.length_cons]
    push_cast
    nlinarith

theorem abs_sum_le_sq (X : List Int → Int) (l : List (List Int)) :
    (l.map fun j => |X j|).sum ≤ (l.map fun j => X j ^ 2).sum := by
  induction l with
  | nil => simp
  | cons j l ih =>
    simp only [List.map_cons, List.sum_cons]
    have : |X j| ≤ X j ^ 2 := by
      rw [← sq_abs]
      have h0 := abs_nonneg (X j)
      rcases eq_or_lt_of_le h0 with h | h
      · rw [← h]; norm_num
      · nlinarith
    omega

/-- The truncated mean and mean of squares. -/
theorem dev_bounds {S Q n : Int} (hn : 0 < n) (hQ : 0 ≤ Q) (hc : S ^ 2 ≤ n * Q) :
    0 ≤ Q.tdiv n - S.tdiv n * S.tdiv n ∧
      (∀ s, s ^ 2 * n ^ 2 ≤ n * Q - S ^ 2 → s ^ 2 ≤ Q.tdiv n - S.tdiv n * S.tdiv n) ∧
      (Q.tdiv n - S.tdiv n * S.tdiv n) * n ^ 2 ≤ n * Q - S ^ 2 + 2 * n * |S| := by
  obtain ⟨q, hq⟩ : ∃ q, q = Q.tdiv n := ⟨_, rfl⟩
  obtain ⟨m, hm⟩ : ∃ m, m = |S.tdiv n| := ⟨_, rfl⟩
  have hmm : S.tdiv n * S.tdiv n = m * m := by rw [hm, abs_mul_abs_self]
  have hq1 : q * n ≤ Q ∧ Q < (q + 1) * n := by
    rw [hq, Int.tdiv_eq_ediv_of_nonneg hQ]
    exact ⟨Int.ediv_mul_le _ (by omega), Int.lt_ediv_add_one_mul_self _ hn⟩
  have hm1 : m * n ≤ |S| ∧ |S| < (m + 1) * n := by
    have : m = |S| / n := by
      rw [hm, Int.abs_eq_natAbs, Int.natAbs_tdiv, Int.abs_eq_natAbs S]
      conv_rhs => rw [← Int.natAbs_of_nonneg hn.le]
      exact Int.natCast_div _ _
    rw [this]
    exact ⟨Int.ediv_mul_le _ (by omega), Int.lt_ediv_add_one_mul_self _ hn⟩
  have hm0 : 0 ≤ m := by rw [hm]; exact abs_nonneg _
  rw [hmm, ← hq]
  have hS : S ^ 2 = |S| ^ 2 := (sq_abs S).symm
  clear hq hm hmm
  have ha : 0 ≤ |S| := abs_nonneg S
  rw [hS] at hc ⊢
  generalize |S| = a at *
  have h1 : (m * n) ^ 2 ≤ a ^ 2 := by
    have : 0 ≤ m * n := by positivity
    nlinarith
  have h2 : n * Q - a ^ 2 < n ^ 2 * (q - m * m) + n ^ 2 := by
    have : n * Q < n * ((q + 1) * n) := by nlinarith
    nlinarith
  have hn2 : 0 < n ^ 2 := by positivity
  refine ⟨?_, ?_, ?_⟩
  · by_contra hneg
    have : q - m * m ≤ -1 := by omega
    nlinarith
  · intro s hs
    by_contra hneg
    have : q - m * m + 1 ≤ s ^ 2 := by omega
    nlinarith
  · have h3 : a ^ 2 - (m * n) ^ 2 ≤ 2 * n * a := by
      have h4 : 0 ≤ a - m * n := by linarith
      have h5 : a - m * n ≤ n := by nlinarith
      nlinarith
    nlinarith

/-! ## C74 -/

/-- An array in block 0 over the listed cells. -/
def iheap (l : List Int) : Heap Int :=
  ⟨fun b => if b = 0 then fun i => if i < 0 then none else l[i.toNat]? else fun _ => none, 1⟩

/-- Every element of the array has a value of type `t`. -/
def OfType (t : Elem) (a : Arr) (X : List Int → Int) : Prop :=
  ∀ j, ValidIdx a.shape j → lo t ≤ X j ∧ X j ≤ hi t

/-- C74: the sum of an array of unsigned integers is the exact sum modulo `2 ^ bits`. -/
theorem C74_sum_unsigned (t : Elem) (ht : t = .u8 ∨ t = .u32) (a : Arr) (axes : List Int)
    (junk : Int → Int) (h : Heap Int) (X : List Int → Int) (hax : GoodAxes a axes) (hwf : a.WF)
    (hX : h.Contains a X) (hb : a.blk < h.next) (hT : OfType t a X) :
    ∃ R : List Int → Int,
      Returns h (sumInt t a axes junk h) (orUnit 1 (remaining axes a.shape)) R ∧
      ∀ i, ValidIdx (orUnit 1 (remaining axes a.shape)) i → ∀ l, Enumerates a.shape axes i l →
        R i = (l.map X).sum % 2 ^ bits t := by
  refine ⟨fun i => wrap t (((order a.shape axes i).map X).sum), reduceNew_spec hax hwf _ _ _ _ _ _
    (plain_visit hX hb _) _ fun o ho => ?_, fun i hi l hl => ?_⟩
  · have hE := order_enumerates hax ho
    rw [fold_unsigned ht X _ 0 (by rcases ht with rfl | rfl <;> simp [lo, hi])
      (fun j hj => hT j ((hE.2 j).1 hj).1), zero_add]
    rfl
  · have hp := enumerates_perm (order_enumerates hax hi) hl
    simp only
    rw [(hp.map X).sum_eq, wrap_unsigned ht]

/-- C74: as long as the magnitudes of the elements of each result add up to no more than the type
holds, the sum is the exact sum. Missing: sums that do not fit. -/
theorem C74_sum_partial (t : Elem) (ht : t ≠ .f32) (a : Arr) (axes : List Int)
    (junk : Int → Int) (h : Heap Int) (X : List Int → Int) (hax : GoodAxes a axes) (hwf : a.WF)
    (hX : h.Contains a X) (hb : a.blk < h.next) (hT : OfType t a X)
    (hs : ∀ i, ValidIdx (orUnit 1 (remaining axes a.shape)) i → ∀ l, Enumerates a.shape axes i l →
      (l.map fun j => |X j|).sum ≤ hi t) :
    ∃ R : List Int → Int,
      Returns h (sumInt t a axes junk h) (orUnit 1 (remaining axes a.shape)) R ∧
      ∀ i, ValidIdx (orUnit 1 (remaining axes a.shape)) i → ∀ l, Enumerates a.shape axes i l →
        R i = (l.map X).sum := by
  refine ⟨fun i => ((order a.shape axes i).map X).sum, reduceNew_spec hax hwf _ _ _ _ _ _
    (plain_visit hX hb _) _ fun o ho => ?_, fun i hi l hl => ?_⟩
  · have hE := order_enumerates hax ho
    have hT' : ∀ j ∈ order a.shape axes o, lo t ≤ X j ∧ X j ≤ hi t :=
      fun j hj => hT j ((hE.2 j).1 hj).1
    rw [fold_small ht X _ 0 (fun hu => ⟨le_rfl, fun j hj => by
      have := (hT' j hj).1
      rcases hu with rfl | rfl <;> simpa [lo] using this⟩) (by simpa using hs o ho _ hE), zero_add]
    rfl
  · have hp := enumerates_perm (order_enumerates hax hi) hl
    simp only
    rw [(hp.map X).sum_eq]

/-- C74: in the same case, unless the number of elements per result is one more than a multiple of
`2 ^ bits` (in particular, unless it is one), the mean is the exact mean, truncated towards zero (for a result
with at least one element). Missing: the other cases. -/
theorem C74_mean_partial (t : Elem) (ht : t ≠ .f32) (a : Arr) (axes : List Int)
    (junk : Int → Int) (h : Heap Int) (X : List Int → Int) (hax : GoodAxes a axes) (hwf : a.WF)
    (hX : h.Contains a X) (hb : a.blk < h.next) (hT : OfType t a X)
    (hs : ∀ i, ValidIdx (orUnit 1 (remaining axes a.shape)) i → ∀ l, Enumerates a.shape axes i l →
      l ≠ [] ∧ l.length % 2 ^ bits t ≠ 1 ∧ (l.map fun j => |X j|).sum ≤ hi t)
    (hne : ∃ i, ValidIdx (orUnit 1 (remaining axes a.shape)) i) :
    ∃ R : List Int → Int,
      Returns h (meanInt t a axes junk h) (orUnit 1 (remaining axes a.shape)) R ∧
      ∀ i, ValidIdx (orUnit 1 (remaining axes a.shape)) i → ∀ l, Enumerates a.shape axes i l →
        R i = Int.tdiv (l.map X).sum l.length := by
  obtain ⟨i0, hi0⟩ := hne
  have hc := count_eq (a := a) axes hwf i0
  obtain ⟨hl0, hl1, -⟩ := hs i0 hi0 _ (order_enumerates hax hi0)
  have hpos : 0 < count a axes := by
    rw [hc]; exact_mod_cast List.length_pos_iff.2 hl0
  have hscale : ∃ v, scaleOf t (count a axes - 1) = .ok v := by
    rw [scaleOf, if_neg]
    · exact ⟨_, rfl⟩
    · intro hw
      have hm := wrap_modEq t (count a axes - 1)
      rw [hw] at hm
      have hd : (2 ^ bits t : Int) ∣ count a axes - 1 := by
        have := hm.dvd
        simpa using this
      obtain ⟨k, hk⟩ := hd
      apply hl1
      have hz : ((order a.shape axes i0).length : Int) % (2 ^ bits t : Int) = 1 := by
        rw [← hc, show count a axes = 1 + 2 ^ bits t * k by omega, Int.add_mul_emod_self_left]
        cases t <;> simp_all [bits]
      exact_mod_cast hz
  obtain ⟨v, hv⟩ := hscale
  refine ⟨fun i => ((order a.shape axes i).map X).sum.tdiv (order a.shape axes i).length, ?_,
    fun i hi l hl => ?_⟩
  · rw [meanInt, hv, Outcome.bind_ok]
    refine reduceNew_spec hax hwf _ _ _ _ _ _ (plain_visit hX hb _) _ fun o ho => ?_
    have hE := order_enumerates hax ho
    have hT' : ∀ j ∈ order a.shape axes o, lo t ≤ X j ∧ X j ≤ hi t :=
      fun j hj => hT j ((hE.2 j).1 hj).1
    have hs' := (hs o ho _ hE).2.2
    rw [fold_small ht X _ 0 (fun hu => ⟨le_rfl, fun j hj => by
      have := (hT' j hj).1
      rcases hu with rfl | rfl <;> simpa [lo] using this⟩) (by simpa using hs'), zero_add,
      Outcome.bind_ok, if_neg (by omega), count_eq axes hwf o, Outcome.pure_eq,
      wrap_eq t ht (tdiv_range (by omega) (sum_in_range ht X _ hT' hs') ht)]
  · have hp := enumerates_perm (order_enumerates hax hi) hl
    simp only
    rw [(hp.map X).sum_eq, hp.length_eq]

/-- **C74 fails for the mean of one element**: the unused factor `1 / (n - 1)` divides by zero and the
quotient is converted to an integer. -/
theorem C74_mean_one_ub (t : Elem) (a : Arr) (axes : List Int) (junk : Int → Int) (h : Heap Int)
    (hn : count a axes = 1) : meanInt t a axes junk h = .ub := by
  have : scaleOf t (count a axes - 1) = .ub := by
    rw [hn, scaleOf, if_pos]
    cases t <;> simp [wrap, lo, bits]
  rw [meanInt, this]; rfl

/-- C74: combining no elements has no mean: undefined behaviour, the division by the number of elements
is one by zero (the result having at least one element). -/
theorem C74_mean_of_nothing (t : Elem) (ht : t ≠ .f32) (a : Arr) (axes : List Int) (junk : Int → Int)
    (h : Heap Int) (X : List Int → Int) (hax : GoodAxes a axes) (hwf : a.WF) (hX : h.Contains a X)
    (hb : a.blk < h.next) (i : List Int) (hi : ValidIdx (orUnit 1 (remaining axes a.shape)) i)
    (hnone : Enumerates a.shape axes i []) : meanInt t a axes junk h = .ub := by
  have hp := enumerates_perm (order_enumerates hax hi) hnone
  have hc : count a axes = 0 := by rw [count_eq axes hwf i, hp.length_eq]; rfl
  have hs : ∃ v, scaleOf t (count a axes - 1) = .ok v := by
    rw [hc, scaleOf, if_neg]
    · exact ⟨_, rfl⟩
    · cases t <;> first | exact absurd rfl ht | (simp [wrap, lo, bits]; done) | decide
  obtain ⟨v, hs⟩ := hs
  rw [meanInt, hs, Outcome.bind_ok]
  have he : ∀ o, order a.shape axes o = [] := fun o =>
    List.length_eq_zero_iff.1 (by exact_mod_cast (count_eq (a := a) axes hwf o).symm.trans hc)
  have hfin : ∀ o, ((order a.shape axes o).foldl
      (fun (acc : Outcome Int) j => acc.bind (addTo t · (X j))) (.ok 0) >>= fun s =>
      if count a axes = 0 then Outcome.ub else pure (wrap t (s.tdiv (count a axes)))) = .ub := by
    intro o; rw [he, List.foldl_nil, Outcome.bind_ok, if_pos hc]
  exact reduceNew_ends_at ends_ub hax hwf _ _ _ junk h _ (plain_visit hX hb _)
    (fun o _ => .inl (hfin o)) i hi (hfin i)

example : isUb (meanInt .i32 ⟨0, [⟨0, 1, 0⟩]⟩ [] (fun _ => 0) (iheap [])) = true := by decide +kernel

/-- **C74 fails for sums that do not fit**: of the bytes `[200, 100]` the sum is 44 and the mean is 22. -/
theorem C74_byte_mean_wrong :
    resultAt (sumInt .u8 ⟨0, [⟨2, 1, 0⟩]⟩ [] (fun _ => 0) (iheap [200, 100])) [0] = some 44 ∧
    resultAt (meanInt .u8 ⟨0, [⟨2, 1, 0⟩]⟩ [] (fun _ => 0) (iheap [200, 100])) [0] = some 22 := by
  refine ⟨by decide +kernel, by decide +kernel⟩

/-- **C74 is undefined for signed sums that do not fit.** -/
theorem C74_signed_sum_ub :
    isUb (sumInt .i32 ⟨0, [⟨2, 1, 0⟩]⟩ [] (fun _ => 0) (iheap [2147483647, 1])) = true ∧
    isUb (meanInt .i32 ⟨0, [⟨2, 1, 0⟩]⟩ [] (fun _ => 0) (iheap [2147483647, 1])) = true := by
  refine ⟨by decide +kernel, by decide +kernel⟩

/-- **C74 fails for the standard deviation**: the factor `1/n` is truncated to 0, so the result is 0
whatever the data, as soon as more than one element is combined (and the number of elements and the
squares of signed elements fit the type). -/
theorem C74_stddev_always_zero (root : Int → Int) (hr : root 0 = 0) (t : Elem) (ht : t ≠ .f32)
    (a : Arr) (axes : List Int)
    (junk : Int → Int) (h : Heap Int) (X : List Int → Int) (hax : GoodAxes a axes) (hwf : a.WF)
    (hX : h.Contains a X) (hb : a.blk < h.next) (hT : OfType t a X)
    (hn : 2 ≤ count a axes) (hn' : count a axes ≤ hi t)
    (hq : t = .i32 ∨ t = .i64 → ∀ j, ValidIdx a.shape j → X j * X j ≤ hi t) :
    Returns h (stddevInt root t a axes junk h) (orUnit 1 (remaining axes a.shape)) (fun _ => 0) := by
  have hlo : lo t ≤ 0 ∧ 0 ≤ hi t := by cases t <;> simp_all [lo, hi]
  have hs : scaleOf t (count a axes) = .ok 0 := by
    rw [scaleOf, wrap_eq t ht ⟨by omega, hn'⟩, if_neg (by omega),
      Int.tdiv_eq_zero_of_lt (by omega) (by omega)]
  rw [stddevInt, hs, Outcome.bind_ok]
  have h00 : inType t 0 = .ok 0 := inType_ok ht hlo
  have ha0 : addTo t 0 0 = .ok 0 := by simpa using addTo_ok ht (acc := 0) (v := 0) (by simpa using hlo)
  refine reduceNew_spec hax hwf _ _ _ _ _ _ (plain_visit hX hb _) _ fun o ho => ?_
  have hE := order_enumerates hax ho
  have hstep : ∀ j, ValidIdx a.shape j → devStepInt t 0 (0, 0) (X j) = .ok (0, 0) := by
    intro j hj
    have hT' := hT j hj
    have hx : ∃ q, inType t (X j * X j) = .ok q := by
      have h1 : 0 ≤ X j * X j := mul_self_nonneg _
      rcases t with _ | _ | _ | _ | _
      · exact absurd rfl ht
      · exact ⟨_, inType_ok ht ⟨by simp [lo]; omega, hq (by simp) j hj⟩⟩
      · exact ⟨_, inType_ok ht ⟨by simp [lo]; omega, hq (by simp) j hj⟩⟩
      · refine ⟨X j * X j, ?_⟩
        simp only [lo, hi] at hT'
        have : X j * X j ≤ 255 * 255 := by nlinarith
        simp [inType, common, lo, hi]
        omega
      · exact ⟨_, inType_u32 _⟩
    obtain ⟨q, hq'⟩ := hx
    rw [devStepInt, mul_zero, h00, Outcome.bind_ok, ha0, Outcome.bind_ok, hq', Outcome.bind_ok, mul_zero,
      h00, Outcome.bind_ok, ha0, Outcome.bind_ok, Outcome.pure_eq]
  have hf := (fold_ok X (devStepInt t 0) (fun b _ => b) (· = (0, 0)) (order a.shape axes o) (0, 0) rfl
    (fun b hb j hj => by
      subst hb
      exact ⟨hstep j ((hE.2 j).1 hj).1, rfl⟩)).1
  rw [hf]
  have : (order a.shape axes o).foldl (fun (acc : Int × Int) (_ : List Int) => acc) (0, 0) = (0, 0) := by
    generalize order a.shape axes o = l
    induction l with
    | nil => rfl
    | cons j l ih => exact ih
  rw [this]
  change devFinishInt root t (0, 0) = .ok 0
  rw [devFinishInt, mul_zero, h00, Outcome.bind_ok, sub_zero, h00, Outcome.bind_ok, wrap_eq t ht hlo,
    max_self, rootTo, if_neg (by omega), hr, if_pos hlo]

/-- **C74 is undefined for the standard deviation of signed integers whose squares do not fit**: for
`int32_t`, as soon as one element of the array is 46341 or more. -/
theorem C74_stddev_square_ub (root : Int → Int) (t : Elem) (ht : t = .i32 ∨ t = .i64) (a : Arr)
    (axes : List Int) (junk : Int → Int) (h : Heap Int) (X : List Int → Int) (hax : GoodAxes a axes)
    (hwf : a.WF) (hX : h.Contains a X) (hb : a.blk < h.next) (j : List Int) (hj : ValidIdx a.shape j)
    (hbig : hi t < X j * X j) : stddevInt root t a axes junk h = .ub := by
  rw [stddevInt]
  by_cases hs : scaleOf t (count a axes) = .ub
  · rw [hs]; rfl
  obtain ⟨s, hs⟩ : ∃ s, scaleOf t (count a axes) = .ok s := by
    rw [scaleOf] at hs ⊢
    split
    · rename_i h; rw [if_pos h] at hs; exact absurd rfl hs
    · exact ⟨_, rfl⟩
  rw [hs, Outcome.bind_ok]
  have ho := valid_remaining hax hj
  refine reduceNew_ub hax hwf _ _ _ _ _ _ (plain_visit hX hb _) ?_ _ ho ?_
  · intro o
    exact NoThrow.bind (noThrow_fold X (devStepInt t s) (noThrow_devStep t s) _ _ (Or.inr ⟨_, rfl⟩))
      (noThrow_devFinish root t)
  · rw [fold_bad X (devStepInt t s) (noThrow_devStep t s) _ _ (Or.inr ⟨_, rfl⟩) j
      (((order_enumerates hax ho).2 j).2 ⟨hj, rfl⟩) (fun b => devStep_square_ub ht s b hbig)]
    rfl

/-- `l` lists the unmasked elements that belong to result element `i`, each once. -/
def Lists (a : Arr) (axes : List Int) (M : List Int → UInt8) (i : List Int) (l : List (List Int)) :
    Prop :=
  l.Nodup ∧ ∀ j, j ∈ l ↔ ValidIdx a.shape j ∧ orUnit 0 (remaining axes j) = i ∧ M j = 0

theorem lists_perm {a : Arr} {axes : List Int} {M : List Int → UInt8} {i : List Int}
    {l m : List (List Int)} (hl : Lists a axes M i l) (hm : Lists a axes M i m) : l.Perm m := by
  rw [List.perm_ext_iff_of_nodup hl.1 hm.1]
  intro j
  rw [hl.2, hm.2]

theorem fold_pair {β : Type} (X : List Int → Int) (f : Outcome β → Int → Outcome β)
    (l : List (List Int)) (b : Outcome β) (k : Int) :
    l.foldl (fun (acc : Outcome β × Int) j => (f acc.1 (X j), acc.2 + 1)) (b, k) =
      (l.foldl (fun acc j => f acc (X j)) b, k + l.length) := by
  induction l generalizing b k with
  | nil => simp
  | cons j l ih => simp only [List.foldl_cons, ih, List.length_cons]; congr 1; push_cast; ring

/-- C74: with a mask of the same memory layout, when every result has an unmasked element and the
magnitudes of the unmasked elements of each result add up to no more than the type holds, the masked
mean is the exact mean of those elements, truncated towards zero. Missing: the other cases. -/
theorem C74_masked_mean_partial (t : Elem) (ht : t ≠ .f32) (a mask : Arr) (hm : Heap UInt8)
    (axes : List Int) (junk : Int → Int) (h : Heap Int) (X : List Int → Int) (M : List Int → UInt8)
    (hax : GoodAxes a axes) (hwf : a.WF) (hX : h.Contains a X) (hM : hm.Contains mask M)
    (hshape : a.shape = mask.shape)
    (hlay : ∀ j, ValidIdx a.shape j → addr mask.dims j = addr a.dims j)
    (hb : a.blk < h.next) (hT : OfType t a X)
    (hs : ∀ i, ValidIdx (orUnit 1 (remaining axes a.shape)) i → ∀ l, Lists a axes M i l →
      l ≠ [] ∧ (l.map fun j => |X j|).sum ≤ hi t) :
    ∃ R : List Int → Int,
      Returns h (maskedMeanInt t a mask hm axes junk h) (orUnit 1 (remaining axes a.shape)) R ∧
      ∀ i, ValidIdx (orUnit 1 (remaining axes a.shape)) i → ∀ l, Lists a axes M i l →
        R i = Int.tdiv (l.map X).sum l.length := by
  refine ⟨fun i => ((unmasked a.shape axes M i).map X).sum.tdiv (unmasked a.shape axes M i).length, ?_,
    fun i hi l hl => ?_⟩
  · rw [maskedMeanInt, if_pos hshape]
    refine reduceNew_spec hax hwf _ _ _ _ _ _ (masked_visit hX hM hshape hlay hb _) _ fun o ho => ?_
    rw [foldl_mask (fun (acc : Outcome Int × Int) j => (acc.1.bind (addTo t · (X j)), acc.2 + 1)),
      fold_pair X (fun acc v => acc.bind (addTo t · v))]
    have hE : Lists a axes M o (unmasked a.shape axes M o) := unmasked_mem hax ho M
    change ((unmasked a.shape axes M o).foldl _ _ >>= fun s => _) = _
    have hT' : ∀ j ∈ unmasked a.shape axes M o, lo t ≤ X j ∧ X j ≤ hi t :=
      fun j hj => hT j ((hE.2 j).1 hj).1
    obtain ⟨hne, hs'⟩ := hs o ho _ hE
    have hpos := List.length_pos_iff.2 hne
    rw [fold_small ht X _ 0 (fun hu => ⟨le_rfl, fun j hj => by
      have := (hT' j hj).1
      rcases hu with rfl | rfl <;> simpa [lo] using this⟩) (by simpa using hs'), zero_add,
      Outcome.bind_ok]
    change (if (0 : Int) + (unmasked a.shape axes M o).length = 0 then _ else _) = _
    rw [if_neg (by omega), zero_add, Outcome.pure_eq,
      wrap_eq t ht (tdiv_range (by omega) (sum_in_range ht X _ hT' hs') ht)]
    rfl
  · have hp := lists_perm (unmasked_mem hax hi M) hl
    simp only
    rw [(hp.map X).sum_eq, hp.length_eq]

/-- C74: when every element that would enter some result is masked (and the sums of the others fit as
in `C74_masked_mean_partial`), the masked mean throws rather than deliver a number. -/
theorem C74_masked_mean_of_nothing (t : Elem) (ht : t ≠ .f32) (a mask : Arr) (hm : Heap UInt8)
    (axes : List Int) (junk : Int → Int) (h : Heap Int) (X : List Int → Int) (M : List Int → UInt8)
    (hax : GoodAxes a axes) (hwf : a.WF) (hX : h.Contains a X) (hM : hm.Contains mask M)
    (hshape : a.shape = mask.shape)
    (hlay : ∀ j, ValidIdx a.shape j → addr mask.dims j = addr a.dims j)
    (hb : a.blk < h.next) (hT : OfType t a X)
    (hs : ∀ i, ValidIdx (orUnit 1 (remaining axes a.shape)) i → ∀ l, Lists a axes M i l →
      (l.map fun j => |X j|).sum ≤ hi t)
    (i : List Int) (hi : ValidIdx (orUnit 1 (remaining axes a.shape)) i)
    (hnone : ∀ j, ValidIdx a.shape j → orUnit 0 (remaining axes j) = i → M j ≠ 0) :
    maskedMeanInt t a mask hm axes junk h = .throws .runtimeError := by
  have hempty : unmasked a.shape axes M i = [] := by
    rw [List.eq_nil_iff_forall_not_mem]
    intro j hj
    obtain ⟨h1, h2, h3⟩ := ((unmasked_mem hax hi M).2 j).mp hj
    exact hnone j h1 h2 h3
  rw [maskedMeanInt, if_pos hshape]
  refine reduceNew_throws_at hax hwf _ _ _ junk h _ (masked_visit hX hM hshape hlay hb _) _ ?_ i hi ?_
  · intro o ho
    rw [foldl_mask (fun (acc : Outcome Int × Int) j => (acc.1.bind (addTo t · (X j)), acc.2 + 1)),
      fold_pair X (fun acc v => acc.bind (addTo t · v))]
    have hE : Lists a axes M o (unmasked a.shape axes M o) := unmasked_mem hax ho M
    have hT' : ∀ j ∈ unmasked a.shape axes M o, lo t ≤ X j ∧ X j ≤ Elements.hi t :=
      fun j hj => hT j ((hE.2 j).1 hj).1
    have hs' := hs o ho _ hE
    change _ ∨ ∃ v, ((unmasked a.shape axes M o).foldl _ _ >>= fun s => _) = Outcome.ok v
    change ((unmasked a.shape axes M o).foldl _ _ >>= fun s => _) = _ ∨ _
    rw [fold_small ht X _ 0 (fun hu => ⟨le_rfl, fun j hj => by
      have := (hT' j hj).1
      rcases hu with rfl | rfl <;> simpa [lo] using this⟩) (by simpa using hs')]
    simp only [Outcome.bind_ok]
    change ((if (0 : Int) + (unmasked a.shape axes M o).length = 0 then _ else _) = _) ∨
      ∃ v, (if (0 : Int) + (unmasked a.shape axes M o).length = 0 then _ else _) = _
    by_cases h0 : (0 : Int) + (unmasked a.shape axes M o).length = 0
    · left; rw [if_pos h0]
    · right; rw [if_neg h0]; exact ⟨_, rfl⟩
  · rw [foldl_mask (fun (acc : Outcome Int × Int) j => (acc.1.bind (addTo t · (X j)), acc.2 + 1))]
    unfold unmasked at hempty
    rw [hempty]
    rfl

/-- C74: a mask of another shape is refused. -/
theorem C74_mask_shape (t : Elem) (a mask : Arr) (hm : Heap UInt8) (axes : List Int) (junk : Int → Int)
    (h : Heap Int) (hne : a.shape ≠ mask.shape) :
    maskedMeanInt t a mask hm axes junk h = .throws .runtimeError ∧
    ∀ root, maskedStddevInt root t a mask hm axes junk h = .throws .runtimeError := by
  refine ⟨by rw [maskedMeanInt, if_neg hne], fun root => by rw [maskedStddevInt, if_neg hne]⟩

theorem mdev_fold {t : Elem} (ht : t ≠ .f32) (X : List Int → Int) (l : List (List Int)) (b : Int × Int)
    (hT : ∀ j ∈ l, lo t ≤ X j ∧ X j ≤ hi t) (hb : lo t ≤ b.1 ∧ |b.1| ≤ b.2)
    (hs : b.2 + (l.map fun j => X j ^ 2).sum ≤ hi t) :
    l.foldl (fun (acc : Outcome (Int × Int)) j => acc.bind (mdevStepInt t · (X j))) (.ok b) =
      .ok (b.1 + (l.map X).sum, b.2 + (l.map fun j => X j ^ 2).sum) := by
  induction l generalizing b with
  | nil => simp
  | cons j l ih =>
    simp only [List.map_cons, List.sum_cons] at hs
    have hn : 0 ≤ (l.map fun j => X j ^ 2).sum := List.sum_nonneg (by
      intro x hx
      obtain ⟨j, -, rfl⟩ := List.mem_map.1 hx
      exact sq_nonneg _)
    have hx2 := sq_nonneg (X j)
    have hxa : |X j| ≤ X j ^ 2 := by
      rw [← sq_abs]
      have h0 := abs_nonneg (X j)
      rcases eq_or_lt_of_le h0 with h | h
      · rw [← h]; norm_num
      · nlinarith
    have h0 := abs_nonneg b.1
    have h1 := abs_add_le b.1 (X j)
    have h2 := le_abs_self (b.1 + X j)
    have h3 := neg_abs_le (b.1 + X j)
    have hTj := hT j (by simp)
    have hlo : lo t ≤ 0 := by cases t <;> simp_all [lo]
    have hr : lo t ≤ b.1 + X j := by
      rcases t with _ | _ | _ | _ | _ <;> simp [lo, hi] at * <;> omega
    have e : mdevStepInt t b (X j) = .ok (b.1 + X j, b.2 + X j ^ 2) := by
      rw [mdevStepInt, addTo_ok ht ⟨hr, by omega⟩, Outcome.bind_ok, ← sq,
        inType_ok ht ⟨by omega, by omega⟩, Outcome.bind_ok, addTo_ok ht ⟨by omega, by omega⟩,
        Outcome.bind_ok, Outcome.pure_eq]
    simp only [List.foldl_cons]
    rw [show (Outcome.ok b).bind (mdevStepInt t · (X j)) = mdevStepInt t b (X j) from rfl, e,
      ih _ (fun j' hj' => hT j' (by simp [hj'])) ⟨hr, by simp only; omega⟩ (by simp only; omega)]
    simp only [List.map_cons, List.sum_cons]
    congr 2 <;> ring

theorem scaleOf_ok {t : Elem} {n : Int} (hn : n % 2 ^ bits t ≠ 0) : ∃ v, scaleOf t n = .ok v := by
  rw [scaleOf, if_neg]
  · exact ⟨_, rfl⟩
  · intro hw
    have hm := wrap_modEq t n
    rw [hw] at hm
    exact hn (by simpa [Int.ModEq] using hm.symm)

/-- C74: with a mask of the same memory layout, when every result has an unmasked element, the squares of
the unmasked elements of each result add up to no more than the type holds (and less than `2 ^ 52`), and
the number of elements, masked or not, is not a multiple of `2 ^ bits`, the masked standard deviation is at
least the integer part of the exact standard deviation of those elements, and its square exceeds the exact
variance by at most twice the magnitude of the exact mean. With `n` elements, sum `S` and sum of squares
`Q`, the variance is `(n * Q - S ^ 2) / n ^ 2`. Missing: the result should be that integer part, but need
not be (`C74_masked_stddev_wrong`), and the other cases. -/
theorem C74_masked_stddev_partial (root : Int → Int)
    (hroot : ∀ n, 0 ≤ n → n < 2 ^ 52 → root n = Int.sqrt n) (t : Elem) (ht : t ≠ .f32) (a mask : Arr)
    (hm : Heap UInt8)
    (axes : List Int) (junk : Int → Int) (h : Heap Int) (X : List Int → Int) (M : List Int → UInt8)
    (hax : GoodAxes a axes) (hwf : a.WF) (hX : h.Contains a X) (hM : hm.Contains mask M)
    (hshape : a.shape = mask.shape)
    (hlay : ∀ j, ValidIdx a.shape j → addr mask.dims j = addr a.dims j)
    (hb : a.blk < h.next) (hT : OfType t a X) (hn : count a axes % 2 ^ bits t ≠ 0)
    (hs : ∀ i, ValidIdx (orUnit 1 (remaining axes a.shape)) i → ∀ l, Lists a axes M i l →
      l ≠ [] ∧ (l.map fun j => X j ^ 2).sum ≤ hi t ∧ (l.map fun j => X j ^ 2).sum < 2 ^ 52) :
    ∃ R : List Int → Int,
      Returns h (maskedStddevInt root t a mask hm axes junk h) (orUnit 1 (remaining axes a.shape)) R ∧
      ∀ i, ValidIdx (orUnit 1 (remaining axes a.shape)) i → ∀ l, Lists a axes M i l →
        ∀ n S Q : Int, n = l.length → S = (l.map X).sum → Q = (l.map fun j => X j ^ 2).sum →
          0 ≤ R i ∧ (∀ s : Int, s ^ 2 * n ^ 2 ≤ n * Q - S ^ 2 → s ≤ R i) ∧
            R i ^ 2 * n ^ 2 ≤ n * Q - S ^ 2 + 2 * n * |S| := by
  let m := unmasked a.shape axes M
  let S := fun i => ((m i).map X).sum
  let Q := fun i => ((m i).map fun j => X j ^ 2).sum
  let d := fun i => (Q i).tdiv (m i).length - (S i).tdiv (m i).length * (S i).tdiv (m i).length
  have hE : ∀ o, ValidIdx (orUnit 1 (remaining axes a.shape)) o → Lists a axes M o (m o) :=
    fun o ho => unmasked_mem hax ho M
  have hQ : ∀ o, 0 ≤ Q o := fun o => List.sum_nonneg (by
      intro x hx
      obtain ⟨j, -, rfl⟩ := List.mem_map.1 hx
      exact sq_nonneg _)
  have hd : ∀ o, ValidIdx (orUnit 1 (remaining axes a.shape)) o → _ := fun o ho =>
    dev_bounds (n := (m o).length)
      (by exact_mod_cast List.length_pos_iff.2 (hs o ho _ (hE o ho)).1) (hQ o) (sq_sum_le X (m o))
  obtain ⟨v, hv⟩ := scaleOf_ok hn
  refine ⟨fun i => Int.sqrt (d i), ?_, ?_⟩
  · rw [maskedStddevInt, if_pos hshape, hv, Outcome.bind_ok]
    refine reduceNew_spec hax hwf _ _ _ _ _ _ (masked_visit hX hM hshape hlay hb _) _ fun o ho => ?_
    rw [foldl_mask (fun (acc : Outcome (Int × Int) × Int) j =>
        (acc.1.bind (mdevStepInt t · (X j)), acc.2 + 1)),
      fold_pair X (fun acc v => acc.bind (mdevStepInt t · v))]
    change ((m o).foldl _ _ >>= fun s => _) = _
    have hT' : ∀ j ∈ m o, lo t ≤ X j ∧ X j ≤ hi t := fun j hj => hT j (((hE o ho).2 j).1 hj).1
    obtain ⟨hne, hs1, hs2⟩ := hs o ho _ (hE o ho)
    have hpos := List.length_pos_iff.2 hne
    have hlo : lo t ≤ 0 := by cases t <;> simp_all [lo]
    rw [mdev_fold ht X (m o) (0, 0) hT' ⟨hlo, by simp⟩ (by simpa using hs1), Outcome.bind_ok]
    simp only [zero_add]
    change (if ((m o).length : Int) = 0 then _ else _) = _
    rw [if_neg (by omega)]
    obtain ⟨h0, -, -⟩ := hd o ho
    change 0 ≤ d o at h0
    have hhi : hi t ≤ hi .i64 := by cases t <;> simp [hi] <;> norm_num
    have hq : (Q o).tdiv (m o).length ≤ Q o := by
      rw [Int.tdiv_eq_ediv_of_nonneg (hQ o)]
      exact Int.ediv_le_self _ (hQ o)
    have hq0 : 0 ≤ (Q o).tdiv (m o).length := Int.tdiv_nonneg (hQ o) (by omega)
    have hmm := mul_self_nonneg ((S o).tdiv (m o).length)
    have hdq : d o ≤ Q o := by simp only [d]; omega
    have hs1' : Q o ≤ hi t := hs1
    have hlo64 : lo .i64 ≤ 0 := by simp [lo]
    change mdevFinishInt root t (m o).length (S o, Q o) = _
    rw [mdevFinishInt]
    simp only
    rw [inType_ok (by simp) ⟨by omega, by simp only [d] at h0; omega⟩, Outcome.bind_ok,
      inType_ok (by simp) ⟨by simp only [d] at h0; omega, by omega⟩, Outcome.bind_ok]
    change rootTo root t (d o) = _
    have hsq : 0 ≤ Int.sqrt (d o) ∧ Int.sqrt (d o) ≤ d o := by
      refine ⟨Int.sqrt_nonneg _, ?_⟩
      obtain ⟨k, hk⟩ := Int.eq_ofNat_of_zero_le h0
      rw [hk, Int.sqrt]
      simp only [Int.toNat_natCast]
      exact_mod_cast Nat.sqrt_le_self k
    rw [rootTo, if_neg (by omega), hroot _ h0 (by have : Q o < 2 ^ 52 := hs2; omega),
      if_pos ⟨by omega, by omega⟩]
  · rintro i hi l hl n' S' Q' rfl rfl rfl
    have hp := lists_perm (hE i hi) hl
    rw [← (hp.map X).sum_eq, ← (hp.map fun j => X j ^ 2).sum_eq, ← hp.length_eq]
    obtain ⟨h0, h1, h2⟩ := hd i hi
    change 0 ≤ d i at h0
    change ∀ s, _ → s ^ 2 ≤ d i at h1
    change d i * _ ≤ _ at h2
    have hsq : Int.sqrt (d i) * Int.sqrt (d i) ≤ d i ∧ d i < (Int.sqrt (d i) + 1) * (Int.sqrt (d i) + 1) := by
      obtain ⟨k, hk⟩ := Int.eq_ofNat_of_zero_le h0
      rw [hk, Int.sqrt]
      simp only [Int.toNat_natCast]
      exact ⟨by exact_mod_cast Nat.sqrt_le k, by exact_mod_cast Nat.lt_succ_sqrt k⟩
    refine ⟨Int.sqrt_nonneg _, fun s hs => ?_, ?_⟩
    · have := h1 s hs
      have hnn := Int.sqrt_nonneg (d i)
      by_contra hlt
      simp only at hlt
      nlinarith
    · have : Int.sqrt (d i) ^ 2 ≤ d i := by rw [sq]; exact hsq.1
      simp only
      refine le_trans (mul_le_mul_of_nonneg_right this (sq_nonneg _)) h2

/-- **C74 fails for the masked standard deviation**: the mean is truncated before it is squared, so
of `[1000, 1001]`, whose standard deviation is 1/2, it is 31. -/
theorem C74_masked_stddev_wrong :
    resultAt (maskedStddevInt Int.sqrt .i32 ⟨0, [⟨2, 1, 0⟩]⟩ ⟨0, [⟨2, 1, 0⟩]⟩ (mheap [0, 0]) []
      (fun _ => 0) (iheap [1000, 1001])) [0] = some 31 := by decide +kernel

/-- C74: with every element masked the masked standard deviation throws. -/
theorem C74_masked_stddev_of_nothing (root : Int → Int) (t : Elem) (a mask : Arr) (hm : Heap UInt8)
    (axes : List Int) (junk : Int → Int) (h : Heap Int) (X : List Int → Int) (M : List Int → UInt8)
    (hax : GoodAxes a axes) (hwf : a.WF) (hX : h.Contains a X) (hM : hm.Contains mask M)
    (hshape : a.shape = mask.shape)
    (hlay : ∀ j, ValidIdx a.shape j → addr mask.dims j = addr a.dims j)
    (hb : a.blk < h.next) (hn : count a axes % 2 ^ bits t ≠ 0)
    (hall : ∀ j, ValidIdx a.shape j → M j ≠ 0)
    (i : List Int) (hi : ValidIdx (orUnit 1 (remaining axes a.shape)) i) :
    maskedStddevInt root t a mask hm axes junk h = .throws .runtimeError := by
  obtain ⟨v, hv⟩ := scaleOf_ok hn
  have hempty : ∀ o, ValidIdx (orUnit 1 (remaining axes a.shape)) o →
      unmasked a.shape axes M o = [] := by
    intro o ho
    rw [List.eq_nil_iff_forall_not_mem]
    intro j hj
    obtain ⟨h1, h2, h3⟩ := ((unmasked_mem hax ho M).2 j).mp hj
    exact hall j h1 h3
  unfold unmasked at hempty
  rw [maskedStddevInt, if_pos hshape, hv, Outcome.bind_ok]
  have key : ∀ o, ValidIdx (orUnit 1 (remaining axes a.shape)) o → _ := fun o ho =>
    (foldl_mask (fun (acc : Outcome (Int × Int) × Int) j =>
      (acc.1.bind (mdevStepInt t · (X j)), acc.2 + 1)) M (order a.shape axes o) (.ok (0, 0), 0)).trans
      (by rw [hempty o ho])
  refine reduceNew_throws_at hax hwf _ _ _ junk h _ (masked_visit hX hM hshape hlay hb _) _ ?_ i hi ?_
  · intro o ho
    left
    rw [key o ho]
    rfl
  · rw [key i hi]
    rfl

/-- **C74 is undefined for byte arrays with a multiple of 256 elements per result**, for both standard
deviations: the number of elements is converted to the type of the data before it divides. -/
theorem C74_stddev_count_ub (root : Int → Int) (t : Elem) (a mask : Arr) (hm : Heap UInt8)
    (axes : List Int) (junk : Int → Int) (h : Heap Int) (hshape : a.shape = mask.shape)
    (ht : t = .u8) (hn : count a axes % 256 = 0) :
    stddevInt root t a axes junk h = .ub ∧ maskedStddevInt root t a mask hm axes junk h = .ub := by
  subst ht
  have : scaleOf .u8 (count a axes) = .ub := by
    rw [scaleOf, if_pos]
    simpa [wrap, lo, bits] using hn
  rw [stddevInt, maskedStddevInt, if_pos hshape, this]
  exact ⟨rfl, rfl⟩

/-! ## Examples -/

/-- Three elements in a row. -/
def arr3 : Arr := ⟨0, [⟨3, 1, 0⟩]⟩

/-- The elements of `arr3` over `[3, -4, 8]`. -/
def vals3 (j : List Int) : Int := if j = [0] then 3 else if j = [1] then -4 else 8

/-- A mask that drops the second. -/
def mask3 (j : List Int) : UInt8 := if j = [1] then 1 else 0

theorem valid3 {j : List Int} (hj : ValidIdx arr3.shape j) : j = [0] ∨ j = [1] ∨ j = [2] := by
  cases hj with
  | cons h1 h2 =>
    cases h2
    rename_i x
    have : x = 0 ∨ x = 1 ∨ x = 2 := by simp at h1; omega
    rcases this with rfl | rfl | rfl <;> simp

theorem valid1 {i : List Int} (hi : ValidIdx (orUnit 1 (remaining [] arr3.shape)) i) : i = [0] := by
  cases hi with
  | cons h1 h2 =>
    cases h2
    rename_i x
    have : x = 0 := by omega
    rw [this]

theorem contains3 : (iheap [3, -4, 8]).Contains arr3 vals3 := by
  intro j hj
  rcases valid3 hj with rfl | rfl | rfl <;> decide

theorem containsMask3 : (mheap [0, 1, 0]).Contains arr3 mask3 := by
  intro j hj
  rcases valid3 hj with rfl | rfl | rfl <;> decide

theorem ofType3 : OfType .i32 arr3 vals3 := by
  intro j hj
  rcases valid3 hj with rfl | rfl | rfl <;> decide

theorem arr3_wf : arr3.WF := by
  intro d hd
  simp [arr3] at hd
  subst hd
  simp

theorem lists3 : Lists arr3 [] mask3 [0] [[0], [2]] := by
  refine ⟨by decide, fun j => ⟨fun h => ?_, fun ⟨h1, _, h3⟩ => ?_⟩⟩
  · simp only [List.mem_cons, List.not_mem_nil, or_false] at h
    rcases h with rfl | rfl <;> exact ⟨.cons (by decide) .nil, by decide, by decide⟩
  · rcases valid3 h1 with rfl | rfl | rfl
    · simp
    · exact absurd h3 (by decide)
    · simp

theorem first_valid : ValidIdx (orUnit 1 (remaining [] arr3.shape)) [0] := .cons (by decide) .nil

theorem all3 : Enumerates arr3.shape [] [0] [[0], [1], [2]] := by
  refine ⟨by decide, fun j => ⟨fun h => ?_, fun ⟨h1, _⟩ => ?_⟩⟩
  · simp only [List.mem_cons, List.not_mem_nil, or_false] at h
    rcases h with rfl | rfl | rfl <;> exact ⟨.cons (by decide) .nil, by decide⟩
  · rcases valid3 h1 with rfl | rfl | rfl <;> simp

/-- The sum of `[3, -4, 8]` as `int32_t` is 7. -/
example (junk : Int → Int) : ∃ R, Returns (iheap [3, -4, 8]) (sumInt .i32 arr3 [] junk (iheap [3, -4, 8]))
    [1] R ∧ R [0] = 7 := by
  obtain ⟨R, h1, h2⟩ := C74_sum_partial .i32 (by simp) arr3 [] junk _ vals3 ⟨by simp, by simp⟩ arr3_wf
    contains3 (by decide) ofType3 fun i hi l hl => by
      rw [valid1 hi] at hl
      rw [((enumerates_perm hl all3).map _).sum_eq]
      decide
  exact ⟨R, h1, (h2 _ first_valid _ all3).trans (by decide)⟩

/-- The mean is 2, from 7/3. -/
example (junk : Int → Int) : ∃ R, Returns (iheap [3, -4, 8]) (meanInt .i32 arr3 [] junk (iheap [3, -4, 8]))
    [1] R ∧ R [0] = 2 := by
  obtain ⟨R, h1, h2⟩ := C74_mean_partial .i32 (by simp) arr3 [] junk _ vals3 ⟨by simp, by simp⟩ arr3_wf
    contains3 (by decide) ofType3 (fun i hi l hl => by
      rw [valid1 hi] at hl
      have hp := enumerates_perm hl all3
      refine ⟨?_, ?_, ?_⟩
      · rintro rfl; simpa using hp.length_eq
      · rw [hp.length_eq]; decide
      · rw [(hp.map _).sum_eq]; decide) ⟨_, first_valid⟩
  exact ⟨R, h1, (h2 _ first_valid _ all3).trans (by decide)⟩

/-- The mean of the two unmasked elements is 5, from 11/2. -/
example (junk : Int → Int) : ∃ R, Returns (iheap [3, -4, 8])
    (maskedMeanInt .i32 arr3 arr3 (mheap [0, 1, 0]) [] junk (iheap [3, -4, 8])) [1] R ∧ R [0] = 5 := by
  obtain ⟨R, h1, h2⟩ := C74_masked_mean_partial .i32 (by simp) arr3 arr3 _ [] junk _ vals3 mask3
    ⟨by simp, by simp⟩ arr3_wf contains3 containsMask3 rfl (fun _ _ => rfl) (by decide) ofType3
    (fun i hi l hl => by
      rw [valid1 hi] at hl
      have hp := lists_perm hl lists3
      refine ⟨?_, ?_⟩
      · rintro rfl; simpa using hp.length_eq
      · rw [(hp.map _).sum_eq]; decide)
  exact ⟨R, h1, (h2 _ first_valid _ lists3).trans (by decide)⟩

/-- Their standard deviation is at least 2, from 5/2. -/
example (junk : Int → Int) : ∃ R, Returns (iheap [3, -4, 8])
    (maskedStddevInt Int.sqrt .i32 arr3 arr3 (mheap [0, 1, 0]) [] junk (iheap [3, -4, 8])) [1] R ∧
      2 ≤ R [0] := by
  obtain ⟨R, h1, h2⟩ := C74_masked_stddev_partial Int.sqrt (fun _ _ _ => rfl) .i32 (by simp) arr3 arr3 _
    [] junk _ vals3 mask3
    ⟨by simp, by simp⟩ arr3_wf contains3 containsMask3 rfl (fun _ _ => rfl) (by decide) ofType3 (by decide)
    (fun i hi l hl => by
      rw [valid1 hi] at hl
      have hp := lists_perm hl lists3
      refine ⟨?_, ?_, ?_⟩
      · rintro rfl; simpa using hp.length_eq
      · rw [(hp.map _).sum_eq]; decide
      · rw [(hp.map _).sum_eq]; decide)
  exact ⟨R, h1, (h2 _ first_valid _ lists3 _ _ _ rfl rfl rfl).2.1 2 (by decide)⟩

/-- The standard deviation of all three comes out as 0. -/
example (junk : Int → Int) : Returns (iheap [3, -4, 8])
    (stddevInt Int.sqrt .i32 arr3 [] junk (iheap [3, -4, 8])) [1] fun _ => 0 :=
  C74_stddev_always_zero Int.sqrt (by decide) .i32 (by simp) arr3 [] junk _ vals3 ⟨by simp, by simp⟩
    arr3_wf contains3 (by decide) ofType3 (by decide) (by decide) fun _ j hj => by
      rcases valid3 hj with rfl | rfl | rfl <;> decide

/-- A byte array whose sum wraps: 300 modulo 256. -/
example : resultAt (sumInt .u8 ⟨0, [⟨3, 1, 0⟩]⟩ [] (fun _ => 0) (iheap [100, 150, 50])) [0] = some 44 := by
  decide +kernel

/-- Two elements whose squares do not fit an `int32_t`. -/
example : isUb (stddevInt Int.sqrt .i32 ⟨0, [⟨2, 1, 0⟩]⟩ [] (fun _ => 0) (iheap [46341, 46341])) = true := by
  decide +kernel

end Bliss.Stat
