import Verif.Stat.Props
import Verif.Misc.Move

/-!
# Flagging hot pixels (C151)

`flag_hot_pixels` (`bliss/rfi/rfi.cpp`) on the CPU.
-/

namespace Bliss.HotPixels

open Bliss.Nd Bliss.Stat

variable {V D : Type}

/-- `flag_hot_pixels` (`bliss/rfi/rfi.cpp:17-43`): deviation and mean of all samples, the threshold
`mean + stddev * 5` as a number, and a new array of flags. `data_ptr` has no effect. `hf` is the memory of
flags, `mul5` the product with 5, the `j`s are what fresh memory holds. Simplified: the arrays of floats
and of bytes are in separate memories. -/
def flagHotPixels (o : StatOps V D) (mul5 : V → V) (B : Move.Build) (a : Arr) (j1 j2 j3 j4 j5 : Int → V)
    (junk : Int → UInt8) (h : Heap V) (hf : Heap UInt8) : Outcome (Heap V × Heap UInt8 × Arr) := do
  let (h1, s) ← stddev o a [] j1 h
  let (h2, m) ← mean o a [] j2 h1
  let (h3, s5) ← scalarOp mul5 h2 s j3
  let (h4, t) ← binOp o.addV h3 m s5 j4
  let _threshold ← Move.scalarize B h4 t ⟨.cpu, 0⟩ j5
  let (hf1, flags) := alloc hf a.shape junk
  pure (h4, hf1, flags)

/-! ## Specification -/

/-- The flags that are meant: 1 for the samples above the threshold. -/
def Hot [LT V] (X : List Int → V) (threshold : V) (i : List Int) : Prop := threshold < X i

/-! ## Proofs -/

theorem binOp_result {op : V → V → V} {h h' : Heap V} {a b r : Arr} {junk : Int → V}
    (e : binOp op h a b junk = .ok (h', r)) : ∃ shape, r = (alloc h shape junk).2 := by
  unfold binOp at e
  cases hs : expandShapes a.shape b.shape with
  | ub => rw [hs] at e; simp [Bind.bind, Outcome.bind] at e
  | throws x => rw [hs] at e; simp [Bind.bind, Outcome.bind] at e
  | ok shape =>
    rw [hs, Outcome.bind_ok] at e
    simp only [] at e
    split at e
    · cases e
    · cases hb : binInto op (alloc h shape junk).1 (alloc h shape junk).2 a b with
      | ub => rw [hb] at e; simp [Bind.bind, Outcome.bind] at e
      | throws x => rw [hb] at e; simp [Bind.bind, Outcome.bind] at e
      | ok h2 =>
        rw [hb, Outcome.bind_ok, Outcome.pure_eq] at e
        cases e
        exact ⟨shape, rfl⟩

theorem scalarOp_fresh (op : V → V) (h : Heap V) (a : Arr) (junk : Int → V) (A : List Int → V)
    (hwf : a.WF) (hA : h.Contains a A) (hla : a.blk < h.next) :
    ∃ h' r, scalarOp op h a junk = .ok (h', r) ∧ r.shape = a.shape ∧ r.blk = h.next ∧
      h'.Contains r (fun idx => op (A idx)) ∧ h.Frame h' ∧ h'.next = h.next + 1 := by
  obtain ⟨p1, p2, p3, p4, p5, p6, p7⟩ := alloc_props h a.shape junk (shape_nonneg hwf)
  obtain ⟨h', e1, e2, e3⟩ := scalarLoop_spec op (alloc h a.shape junk).1 (alloc h a.shape junk).2 a
    p1.symm p2 (Contains.frame hA hla p7) p4 p3 (fun e => by omega)
  obtain ⟨q1, q2, q3⟩ := fresh_of_updated (h := h) p7 p5 p6 e2 e3
  refine ⟨h', (alloc h a.shape junk).2, ?_, p1, p5, q1, q2, q3⟩
  unfold scalarOp
  simp only [e1, Outcome.bind_ok, Outcome.pure_eq]

theorem alloc_base (h : Heap V) (shape : List Int) (junk : Int → V) :
    (alloc h shape junk).2.base = 0 := by
  have key : ∀ s : List Int, ∀ d ∈ (denseDims s).1, d.offset = 0 := by
    intro s
    induction s with
    | nil => simp [denseDims]
    | cons x xs ih =>
      intro d hd
      simp only [denseDims, List.mem_cons] at hd
      rcases hd with rfl | hd
      · rfl
      · exact ih d hd
  have : ∀ l : List Dim, (∀ d ∈ l, d.offset = 0) → (l.map Dim.offset).foldl (· + ·) 0 = 0 := by
    intro l
    induction l with
    | nil => intro _; rfl
    | cons d l ih =>
      intro hl
      rw [List.map_cons, List.foldl_cons, hl d (by simp), add_zero]
      exact ih fun d' hd' => hl d' (by simp [hd'])
  exact this _ (key shape)

/-- The call succeeds for every array, keeps all existing arrays as they are, and returns an array of the
shape of the data. **C151 is violated:** every flag is what happened to be in the new memory, whatever the
data. -/
theorem C151_flags_are_memory (o : StatOps V D) (mul5 : V → V) (B : Move.Build) (a : Arr)
    (j1 j2 j3 j4 j5 : Int → V) (junk : Int → UInt8) (h : Heap V) (hf : Heap UInt8) (X : List Int → V)
    (hwf : a.WF) (hX : h.Contains a X) (hb : a.blk < h.next) :
    ∃ h' hf' r, flagHotPixels o mul5 B a j1 j2 j3 j4 j5 junk h hf = .ok (h', hf', r) ∧
      r.shape = a.shape ∧ h.Frame h' ∧ hf.Frame hf' ∧
      ∀ i, ValidIdx a.shape i → hf'.get r i = some (junk (addr (denseDims a.shape).1 i)) := by
  have hax : GoodAxes a [] := ⟨List.nodup_nil, by simp⟩
  obtain ⟨⟨h1, s, s1, s2, s3, s4, s5, s6⟩, -⟩ := C53_stddev o a [] j1 h X hax hwf hX hb
  have hX1 : h1.Contains a X := Contains.frame hX hb s6
  obtain ⟨⟨h2, m, m1, m2, m3, m4, m5, m6⟩, -⟩ := C53_mean o a [] j2 h1 X hax hwf hX1 (by omega)
  have hunit : orUnit 1 (remaining [] a.shape) = [1] := by simp [remaining, orUnit]
  rw [hunit] at s2 m2
  have wf1 : ∀ r : Arr, r.shape = [1] → r.WF := by
    intro r hr d hd
    have : d.size ∈ r.shape := List.mem_map.2 ⟨d, hd, rfl⟩
    rw [hr] at this
    simp at this
    omega
  have hs2 : h2.Contains s _ := Contains.frame s5 (by omega) m6
  obtain ⟨h3, p, p1, p2, p3, p4, p5, hp3⟩ := scalarOp_fresh mul5 h2 s j3 _ (wf1 s s2) hs2 (by omega)
  rw [s2] at p2
  have hm3 : h3.Contains m _ := Contains.frame m5 (by omega) p5
  obtain ⟨h4, t, t1, t2, t3, t4⟩ := C47_binary_partial o.addV h3 m p j4 _ _ [1] (by rw [m2, p2]; decide)
    (by simp) (by rw [m2]; simp) (by rw [p2]; simp) (by rw [m2]; exact .inl rfl) (by rw [p2]; exact .inl rfl) hm3 p4
    (by omega) (by omega)
  obtain ⟨sh, hsh⟩ := binOp_result t1
  have hv := Move.C103_scalarize_partial B h4 t (wf1 t t2) (by unfold Arr.numel; rw [t2]; rfl)
    (by rw [hsh]; exact alloc_base _ _ _) _ t3 [0] (by
      rw [t2]; exact .cons (by decide) .nil) j5
  have ha := alloc_props hf a.shape junk (by
    intro x hx
    obtain ⟨d, hd, rfl⟩ := List.mem_map.1 hx
    exact hwf d hd)
  refine ⟨h4, (alloc hf a.shape junk).1, (alloc hf a.shape junk).2, ?_, ha.1, ?_, ha.2.2.2.2.2.2, ?_⟩
  · unfold flagHotPixels
    rw [s1, Outcome.bind_ok]
    simp only []
    rw [m1, Outcome.bind_ok]
    simp only []
    rw [p1, Outcome.bind_ok]
    simp only []
    rw [t1, Outcome.bind_ok]
    simp only []
    rw [hv, Outcome.bind_ok]
    rfl
  · intro b hb'
    rw [t4 b (by omega), p5 b (by omega), m6 b (by omega), s6 b hb']
  · intro i hi
    have := dense_bounds hi
    simp [Heap.get, alloc, Buf.ofFn, this.1, this.2]

/-- **C151 is violated in the worst way:** for every data and every threshold there is a content of the
new memory with which exactly the wrong samples are flagged. -/
theorem C151_all_wrong [LT V] (o : StatOps V D) (mul5 : V → V) (B : Move.Build) (a : Arr)
    (j1 j2 j3 j4 j5 : Int → V) (h : Heap V) (hf : Heap UInt8) (X : List Int → V)
    (hwf : a.WF) (hX : h.Contains a X) (hb : a.blk < h.next) (threshold : V) :
    ∃ junk h' hf' r, flagHotPixels o mul5 B a j1 j2 j3 j4 j5 junk h hf = .ok (h', hf', r) ∧
      r.shape = a.shape ∧
      ∀ i, ValidIdx a.shape i → (hf'.get r i = some 1 ↔ ¬ Hot X threshold i) := by
  classical
  let junk : Int → UInt8 := fun k =>
    if ∃ i, ValidIdx a.shape i ∧ addr (denseDims a.shape).1 i = k ∧ ¬ Hot X threshold i then 1 else 0
  obtain ⟨h', hf', r, e1, e2, _, _, e3⟩ :=
    C151_flags_are_memory o mul5 B a j1 j2 j3 j4 j5 junk h hf X hwf hX hb
  refine ⟨junk, h', hf', r, e1, e2, fun i hi => ?_⟩
  rw [e3 i hi]
  by_cases hh : Hot X threshold i
  · have : junk (addr (denseDims a.shape).1 i) = 0 := by
      refine if_neg ?_
      rintro ⟨j, hj, he, hn⟩
      exact hn (dense_inj hj hi he ▸ hh)
    rw [this]
    simp [hh]
  · have : junk (addr (denseDims a.shape).1 i) = 1 := if_pos ⟨i, hi, rfl, hh⟩
    simp [this, hh]

/-- Non-vacuity: the array of the examples of C53, in memory. -/
example : arr23.WF ∧ (heap1 [1, 2, 3, 4, 5, 1000]).Contains arr23
      (fun i => ((heap1 [1, 2, 3, 4, 5, 1000]).get arr23 i).getD 0) ∧
    arr23.blk < (heap1 [1, 2, 3, 4, 5, 1000]).next := by
  refine ⟨?_, ?_, by decide⟩
  · intro d hd
    simp [arr23] at hd
    rcases hd with rfl | rfl <;> decide
  · intro i hi
    rcases hi with _ | ⟨⟨a1, a2⟩, hi⟩
    rcases hi with _ | ⟨⟨b1, b2⟩, hi⟩
    cases hi
    rename_i x y
    change x < 2 at a2
    change y < 3 at b2
    rcases (by omega : x = 0 ∨ x = 1) with rfl | rfl <;>
      rcases (by omega : y = 0 ∨ y = 1 ∨ y = 2) with rfl | rfl | rfl <;> decide +kernel

end Bliss.HotPixels
