import Verif.Drift.Bland
import Verif.Drift.Lemmas2
import Verif.Nd.Props

/-! # The generic drift integrator refines the per-cell path sums -/

namespace Bliss.Drift
open Bliss.Nd

variable {V : Type}

/-- Array `a` is a `D × N` view of live memory that holds the grid `P`. -/
structure Reads (D N : Nat) (h : Heap V) (a : Arr) (P : Nat → Int → V) : Prop where
  shape : a.shape = [(D : Int), (N : Int)]
  wf : a.WF
  live : a.blk < h.next
  val : ∀ (i : Nat) (c : Int), i < D → 0 ≤ c → c < N → h.get a [(i : Int), c] = some (P i c)

/-- In addition, different indices are different elements. -/
structure Rep2 (D N : Nat) (h : Heap V) (a : Arr) (P : Nat → Int → V) : Prop
    extends Reads D N h a P where
  distinct : a.Distinct

theorem valid2 {D N : Int} {idx : List Int} (h : ValidIdx [D, N] idx) :
    ∃ i c, idx = [i, c] ∧ (0 ≤ i ∧ i < D) ∧ 0 ≤ c ∧ c < N := by
  cases h with
  | cons h1 h2 => cases h2 with
    | cons h3 h4 => cases h4; exact ⟨_, _, rfl, h1, h3⟩

theorem valid2_mk {D N i c : Int} (h1 : 0 ≤ i ∧ i < D) (h2 : 0 ≤ c ∧ c < N) :
    ValidIdx [D, N] [i, c] := .cons h1 (.cons h2 .nil)

/-- The grid `P` as a function of multi-indices. -/
def flat (P : Nat → Int → V) : List Int → V := fun idx => P (idx.getD 0 0).toNat (idx.getD 1 0)

theorem Reads.contains {D N : Nat} {h : Heap V} {a : Arr} {P : Nat → Int → V}
    (hr : Reads D N h a P) : h.Contains a (flat P) := by
  intro idx hi
  rw [hr.shape] at hi
  obtain ⟨i, c, rfl, hi, hc⟩ := valid2 hi
  have := hr.val i.toNat c (by omega) hc.1 hc.2
  rw [Int.toNat_of_nonneg hi.1] at this
  simpa [flat] using this

theorem Rep2.congr {D N : Nat} {h : Heap V} {a : Arr} {P Q : Nat → Int → V}
    (hr : Rep2 D N h a P) (hPQ : ∀ (i : Nat) (c : Int), i < D → 0 ≤ c → c < N → P i c = Q i c) :
    Rep2 D N h a Q :=
  ⟨⟨hr.shape, hr.wf, hr.live, fun i c hi hc hN => by
    rw [hr.val i c hi hc hN, hPQ i c hi hc hN]⟩, hr.distinct⟩

theorem Reads.frame {D N : Nat} {h h' : Heap V} {a : Arr} {P : Nat → Int → V}
    (hr : Reads D N h a P) (hm : h'.mem a.blk = h.mem a.blk) (hn : h.next ≤ h'.next) :
    Reads D N h' a P :=
  ⟨hr.shape, hr.wf, by have := hr.live; omega, fun i c hi hc hN => by
    have := hr.val i c hi hc hN
    simpa only [Heap.get, hm] using this⟩

theorem Rep2.frame {D N : Nat} {h h' : Heap V} {a : Arr} {P : Nat → Int → V}
    (hr : Rep2 D N h a P) (hm : h'.mem a.blk = h.mem a.blk) (hn : h.next ≤ h'.next) :
    Rep2 D N h' a P := ⟨hr.toReads.frame hm hn, hr.distinct⟩

theorem slice_row {a : Arr} {R N row lo hi : Int} (hs : a.shape = [R, N])
    (h1 : 0 ≤ row ∧ row < R) (h2 : 0 ≤ lo) (h3 : lo ≤ hi) (h4 : hi ≤ N) :
    ∃ v, sliceMany a (rowSpecs row lo hi) = .ok v ∧ v.shape = [1, hi - lo] := by
  obtain ⟨blk, dims⟩ := a
  rcases dims with _ | ⟨d0, _ | ⟨d1, _ | ⟨_, _⟩⟩⟩ <;> simp [Arr.shape] at hs
  obtain ⟨rfl, rfl⟩ := hs
  have e1 : slice ⟨blk, [d0, d1]⟩ 0 row (row + 1) 1 =
      .ok ⟨blk, [⟨1, d0.stride, d0.offset + row * d0.stride⟩, d1]⟩ := by
    unfold slice
    have a1 : ¬ row < 0 := by omega
    have a2 : ¬ row > d0.size := by omega
    have a3 : ¬ row + 1 < 0 := by omega
    have a4 : ¬ row + 1 > d0.size := by omega
    have a5 : ¬ row + 1 < row := by omega
    have a6 : row + 1 - row = 1 := by omega
    simp [a1, a2, a3, a4, a5, a6]
  have e2 : slice ⟨blk, [⟨1, d0.stride, d0.offset + row * d0.stride⟩, d1]⟩ 1 lo hi 1 =
      .ok ⟨blk, [⟨1, d0.stride, d0.offset + row * d0.stride⟩,
        ⟨hi - lo, d1.stride, d1.offset + lo * d1.stride⟩]⟩ := by
    unfold slice
    have a1 : ¬ lo < 0 := by omega
    have a2 : ¬ lo > d1.size := by omega
    have a3 : ¬ hi < 0 := by omega
    have a4 : ¬ hi > d1.size := by omega
    have a5 : ¬ hi < lo := by omega
    simp [a1, a2, a3, a4, a5]
  refine ⟨⟨blk, [⟨1, d0.stride, d0.offset + row * d0.stride⟩,
        ⟨hi - lo, d1.stride, d1.offset + lo * d1.stride⟩]⟩, ?_, ?_⟩
  · simp only [rowSpecs, sliceMany, e1, e2, Outcome.bind_ok]
  · simp [Arr.shape]

theorem rowSpecs_ok {row lo hi : Int} (h1 : 0 ≤ row) (h2 : 0 ≤ lo) :
    ∀ s ∈ rowSpecs row lo hi, 0 ≤ s.start ∧ 0 < s.stride := by
  intro s hs
  simp only [rowSpecs, List.mem_cons, List.not_mem_nil, or_false] at hs
  rcases hs with rfl | rfl
  · exact ⟨h1, Int.one_pos⟩
  · exact ⟨h2, Int.one_pos⟩

theorem rowSpecs_idx (row lo hi x y : Int) :
    sliceIdxMany (rowSpecs row lo hi) [x, y] = [row + x, lo + y] := by
  simp [rowSpecs, sliceIdxMany, sliceIdx]

theorem scalarOp_full (op : V → V) (h : Heap V) (a : Arr) (junk : Int → V) (A : List Int → V)
    (hwf : a.WF) (hA : h.Contains a A) (hla : a.blk < h.next) :
    ∃ h' r, scalarOp op h a junk = .ok (h', r) ∧ r.shape = a.shape ∧ r.blk = h.next ∧ r.WF ∧
      r.Distinct ∧ h'.Contains r (fun idx => op (A idx)) ∧ h.Frame h' ∧ h'.next = h.next + 1 := by
  obtain ⟨p1, p2, p3, p4, p5, p6, p7⟩ := alloc_props h a.shape junk (shape_nonneg hwf)
  obtain ⟨h', e1, e2, e3⟩ := scalarLoop_spec op (alloc h a.shape junk).1 (alloc h a.shape junk).2 a
    p1.symm p2 (Contains.frame hA hla p7) p4 p3 (fun e => by omega)
  obtain ⟨q1, q2, q3⟩ := fresh_of_updated (h := h) p7 p5 p6 e2 e3
  refine ⟨h', (alloc h a.shape junk).2, ?_, p1, p5, p2, p3, q1, q2, q3⟩
  unfold scalarOp
  simp only [e1, Outcome.bind_ok, Outcome.pure_eq]

theorem binOp_same (op : V → V → V) (h : Heap V) (a b : Arr) (junk : Int → V)
    (A B : List Int → V) (hne : a.shape ≠ []) (hs : b.shape = a.shape) (hwf : a.WF)
    (hA : h.Contains a A) (hB : h.Contains b B) (hla : a.blk < h.next) (hlb : b.blk < h.next) :
    ∃ h' r, binOp op h a b junk = .ok (h', r) ∧ r.shape = a.shape ∧ r.blk = h.next ∧
      h'.Contains r (fun idx => op (A idx) (B idx)) ∧ h.Frame h' ∧ h'.next = h.next + 1 := by
  obtain ⟨p1, p2, p3, p4, p5, p6, p7⟩ := alloc_props h a.shape junk (shape_nonneg hwf)
  have hne' : (alloc h a.shape junk).2.dims ≠ [] := by
    intro e
    apply hne
    rw [← p1, Arr.shape, e]; rfl
  obtain ⟨h', e1, e2, e3⟩ := binInto_spec op (alloc h a.shape junk).1 (alloc h a.shape junk).2 a b
    hne' (by rw [p1]; exact broadcastsTo_self _) (by rw [p1, hs]; exact broadcastsTo_self _)
    (frontSafe_of_length (by rw [p1])) (frontSafe_of_length (by rw [p1, hs]))
    p2 (Contains.frame hA hla p7) (Contains.frame hB hlb p7) p4 p3
    (fun e => by omega) (fun e => by omega)
  obtain ⟨q1, q2, q3⟩ := fresh_of_updated (h := h) p7 p5 p6 e2 e3
  refine ⟨h', (alloc h a.shape junk).2, ?_, p1, p5, ?_, q2, q3⟩
  · have hexp : expandShapes a.shape b.shape = .ok a.shape := by rw [hs]; exact C46_idempotent _
    unfold binOp
    simp only [hexp, binCheck_false hexp, e1, Outcome.bind_ok, Outcome.pure_eq,
      Bool.false_eq_true, if_false]
  · intro idx hi
    have hi' := hi
    rw [p1] at hi'
    rw [q1 idx hi]
    simp only [hs, bcIdx_self hi']

/-- `view = view + q` on a row range of a 2-D array. -/
theorem addAssign {D N : Nat} {h : Heap V} {acc v q : Arr} {P : Nat → Int → V} {Q : List Int → V}
    {i : Nat} {lo hi : Int} (add : V → V → V) (junk : Int → V) (hr : Rep2 D N h acc P)
    (hiD : i < D) (h0 : 0 ≤ lo) (h2 : hi ≤ N)
    (hv : sliceMany acc (rowSpecs i lo hi) = .ok v) (hvs : v.shape = [1, hi - lo])
    (hq : q.shape = [1, hi - lo]) (hQ : h.Contains q Q) (hlq : q.blk < h.next) :
    ∃ h1 s h2, binOp add h v q junk = .ok (h1, s) ∧ assignSlice id h1 v s = .ok h2 ∧
      Rep2 D N h2 acc (onRange (fun c x => add x (Q [0, c - lo])) i lo hi P) ∧
      (∀ b, b < h.next → b ≠ acc.blk → h2.mem b = h.mem b) ∧ h.next ≤ h2.next := by
  have hok := rowSpecs_ok (row := (i : Int)) (hi := hi) (by omega) h0
  obtain ⟨hview, hw⟩ := sliceMany_view hok hv
  obtain ⟨h1, s, e1, e2, e3, e4, e5, e6⟩ := binOp_same add h v q junk _ Q (by rw [hvs]; simp)
    (by rw [hq, hvs]) (hw hr.wf) (hview.contains hr.contains) hQ
    (by rw [hview.blk]; exact hr.live) hlq
  have hacc1 : h1.Contains acc (flat P) := Contains.frame hr.contains hr.live e5
  have hlive := hr.live
  obtain ⟨h2', f1, f2, f3, f4⟩ := C45_assign_slice (id : V → V) h1 acc v s _ _ hok hr.wf hr.distinct
    (fun idx hidx => by rw [hacc1 idx hidx]; simp) hv e2 e4 (by omega)
  have hn2 : h2'.next = h1.next := by
    obtain ⟨hx, g1, _, g2⟩ := unaryLoop_spec (id : V → V) h1 v s e2 (hw hr.wf) e4
      (hview.mapped (fun idx hidx => by rw [hacc1 idx hidx]; simp))
      (hview.distinct (fun i j _ _ e =>
        sliceIdxMany_inj (fun s hx => by have := (hok s hx).2; omega) e) hr.distinct)
      (fun e => by have := hview.blk; omega)
    have : assignSlice id h1 v s = .ok hx := g1
    rw [this] at f1
    cases f1
    exact g2
  refine ⟨h1, s, h2', e1, f1, ⟨⟨hr.shape, hr.wf, by omega, ?_⟩, hr.distinct⟩, ?_, by omega⟩
  · intro i' c hi' hc hcN
    unfold onRange
    by_cases hin : i' = i ∧ lo ≤ c ∧ c < hi
    · obtain ⟨rfl, hc1, hc2⟩ := hin
      rw [if_pos ⟨rfl, hc1, hc2⟩]
      have := f2 [0, c - lo] (by rw [hvs]; exact valid2_mk (by omega) (by omega))
      rw [rowSpecs_idx] at this
      have ec : lo + (c - lo) = c := by omega
      have ei : (i' : Int) + 0 = i' := by omega
      rw [ec, ei] at this
      rw [this]
      simp [flat]
    · rw [if_neg hin]
      have := f3 [(i' : Int), c] (by rw [hr.shape]; exact valid2_mk (by omega) (by omega)) (by
        intro idx hidx he
        rw [hvs] at hidx
        obtain ⟨x, y, rfl, hx, hy⟩ := valid2 hidx
        rw [rowSpecs_idx] at he
        simp only [List.cons.injEq, and_true] at he
        apply hin
        omega)
      rw [this, hacc1 _ (by rw [hr.shape]; exact valid2_mk (by omega) (by omega))]
      simp [flat]
  · intro b hb hne
    rw [f4 b hne]
    exact e5 b hb

theorem div_flag (x : UInt8) (f : UInt8) (hf : f = flagRolloff ∨ f = flagLowSK ∨ f = flagHighSK) :
    (x &&& f) / f = if x &&& f ≠ 0 then 1 else 0 := by
  have hx : x = UInt8.ofNat (⟨x.toNat, x.toNat_lt⟩ : Fin 256) := by simp
  rw [hx]
  generalize (⟨x.toNat, x.toNat_lt⟩ : Fin 256) = n
  rcases hf with rfl | rfl | rfl <;>
  · revert n
    decide +kernel

theorem countFlag_rep {D N T : Nat} {h : Heap UInt8} {acc m ms : Arr} {P : Nat → Int → UInt8}
    {mask : Nat → Int → UInt8} {i t : Nat} {lo hi s : Int} (flag : UInt8)
    (hflag : flag = flagRolloff ∨ flag = flagLowSK ∨ flag = flagHighSK) (junk : Int → UInt8)
    (hr : Rep2 D N h acc P) (hi' : i < D) (h0 : 0 ≤ lo) (h1 : lo ≤ hi) (h2 : hi ≤ N)
    (hm : Reads T N h m mask) (ht : t < T) (hs : 0 ≤ s)
    (hms : sliceMany m (rowSpecs t s (s + (hi - lo))) = .ok ms)
    (hshape : ms.shape = [1, hi - lo]) :
    ∃ h', countFlag flag junk h acc ms i lo hi = .ok h' ∧
      Rep2 D N h' acc (onRange (addC mask flag t (s - lo)) i lo hi P) ∧
      (∀ b, b < h.next → b ≠ acc.blk → h'.mem b = h.mem b) ∧ h.next ≤ h'.next := by
  obtain ⟨v, hv, hvs⟩ := slice_row (row := (i : Int)) (lo := lo) (hi := hi) hr.shape (by omega) h0
    h1 h2
  obtain ⟨hview, hw⟩ := sliceMany_view (rowSpecs_ok (by omega) hs) hms
  obtain ⟨g1, bits, a1, a2, a3, a4, a5, a6, a7, a8⟩ := scalarOp_full (fun x => x &&& flag) h ms junk _
    (hw hm.wf) (hview.contains hm.contains) (by rw [hview.blk]; exact hm.live)
  obtain ⟨g2, ones, b1, b2, b3, b4, b5, b6, b7, b8⟩ := scalarOp_full (fun x => x / flag) g1 bits junk _
    a4 a6 (by omega)
  have hlive := hr.live
  have hr2 : Rep2 D N g2 acc P := hr.frame (by rw [b7 _ (by omega), a7 _ hlive]) (by omega)
  obtain ⟨g3, sm, g4, c1, c2, c3, c4, c5⟩ := addAssign (q := ones) (Q := _) (· + ·) junk hr2 hi' h0
    h2 hv hvs (by rw [b2, a2, hshape]) b6 (by omega)
  refine ⟨g4, ?_, c3.congr ?_, ?_, by omega⟩
  · unfold countFlag
    simp only [hv, a1, b1, c1, c2, Outcome.bind_ok]
  · intro i' c _ hc hcN
    unfold onRange
    by_cases hin : i' = i ∧ lo ≤ c ∧ c < hi
    · rw [if_pos hin, if_pos hin]
      have ec : s + (c - lo) = c + (s - lo) := by omega
      simp only [rowSpecs_idx, flat, List.getD_cons_zero, List.getD_cons_succ, ec, Int.add_zero,
        Int.toNat_natCast, div_flag _ flag hflag, addC]
      split <;> simp
    · rw [if_neg hin, if_neg hin]
  · intro b hb hne
    rw [c4 b (by omega) hne, b7 b (by omega), a7 b hb]

section
variable {F S : Type} [Add F] [Div F] [IntCast F]

/-- The four accumulators hold the four grids, the inputs still hold theirs, and no accumulator
shares an allocation with another one or with an input. -/
structure RepB (D N T : Nat) (inp : BlandInput F) (grid : Nat → Int → F)
    (mask : Nat → Int → UInt8) (s : BlandState F) (P : Nat → Int → F)
    (L H R : Nat → Int → UInt8) : Prop where
  spec : Reads T N s.heapF inp.spec grid
  mask : Reads T N s.heapU inp.mask mask
  plane : Rep2 D N s.heapF s.plane P
  lowsk : Rep2 D N s.heapU s.lowsk L
  highsk : Rep2 D N s.heapU s.highsk H
  rolloff : Rep2 D N s.heapU s.rolloff R
  nSpec : inp.spec.blk ≠ s.plane.blk
  nMask : inp.mask.blk ≠ s.lowsk.blk ∧ inp.mask.blk ≠ s.highsk.blk ∧ inp.mask.blk ≠ s.rolloff.blk
  nAcc : s.lowsk.blk ≠ s.highsk.blk ∧ s.lowsk.blk ≠ s.rolloff.blk ∧ s.highsk.blk ≠ s.rolloff.blk

theorem blandRange_rep {D N T : Nat} {inp : BlandInput F} {grid : Nat → Int → F}
    {mask : Nat → Int → UInt8} {st : BlandState F} {P : Nat → Int → F}
    {L H R : Nat → Int → UInt8} (hr : RepB D N T inp grid mask st P L H R)
    (junkF : Int → F) (junkU : Int → UInt8) {desmear : Int} {i t : Nat}
    (hi : i < D) (ht : t < T) {lo hi' s se : Int}
    (h0 : 0 ≤ lo) (h1 : lo ≤ hi') (h2 : hi' ≤ N) (h3 : 0 ≤ s)
    (h4 : s + (hi' - lo) ≤ N) (h5 : se = s + (hi' - lo)) :
    ∃ st', blandRange inp junkF junkU desmear i t lo hi' s se st = .ok st' ∧
      RepB D N T inp grid mask st' (onRange (addF grid desmear t (s - lo)) i lo hi' P)
        (onRange (addC mask flagLowSK t (s - lo)) i lo hi' L)
        (onRange (addC mask flagHighSK t (s - lo)) i lo hi' H)
        (onRange (addC mask flagRolloff t (s - lo)) i lo hi' R) := by
  subst h5
  obtain ⟨dv, hdv, hdvs⟩ := slice_row (row := (i : Int)) (lo := lo) (hi := hi') hr.plane.shape
    (by omega) h0 h1 h2
  obtain ⟨sv, hsv, hsvs⟩ := slice_row (row := (t : Int)) (lo := s) (hi := s + (hi' - lo))
    hr.spec.shape (by omega) h3 (by omega) h4
  obtain ⟨mv, hmv, hmvs⟩ := slice_row (row := (t : Int)) (lo := s) (hi := s + (hi' - lo))
    hr.mask.shape (by omega) h3 (by omega) h4
  have ew : s + (hi' - lo) - s = hi' - lo := by omega
  rw [ew] at hsvs hmvs
  obtain ⟨m1, m2, m3⟩ := hr.nMask
  obtain ⟨n1, n2, n3⟩ := hr.nAcc
  have lm := hr.mask.live
  have ll := hr.lowsk.live
  have lh := hr.highsk.live
  have lr := hr.rolloff.live
  obtain ⟨u1, a1, a2, a3, a4⟩ := countFlag_rep flagRolloff (.inl rfl) junkU hr.rolloff hi h0 h1 h2
    hr.mask ht h3 hmv hmvs
  have mask1 := hr.mask.frame (a3 _ lm m3) a4
  have low1 := hr.lowsk.frame (a3 _ ll n2) a4
  have high1 := hr.highsk.frame (a3 _ lh n3) a4
  obtain ⟨u2, b1, b2, b3, b4⟩ := countFlag_rep flagLowSK (.inr (.inl rfl)) junkU low1 hi h0 h1 h2
    mask1 ht h3 hmv hmvs
  have mask2 := mask1.frame (b3 _ (by omega) m1) b4
  have high2 := high1.frame (b3 _ (by omega) (Ne.symm n1)) b4
  have roll2 := a2.frame (b3 _ (by omega) (Ne.symm n2)) b4
  obtain ⟨u3, c1, c2, c3, c4⟩ := countFlag_rep flagHighSK (.inr (.inr rfl)) junkU high2 hi h0 h1 h2
    mask2 ht h3 hmv hmvs
  have mask3 := mask2.frame (c3 _ (by omega) m2) c4
  have low3 := b2.frame (c3 _ (by omega) n1) c4
  have roll3 := roll2.frame (c3 _ (by omega) (Ne.symm n3)) c4
  obtain ⟨hview, hw⟩ := sliceMany_view (rowSpecs_ok (by omega) h3) hsv
  obtain ⟨g1, sc, d1, d2, d3, d4, d5, d6, d7, d8⟩ := scalarOp_full (fun x => x / (desmear : F))
    st.heapF sv junkF _ (hw hr.spec.wf) (hview.contains hr.spec.contains)
    (by rw [hview.blk]; exact hr.spec.live)
  have lp := hr.plane.live
  have ls := hr.spec.live
  have plane1 := hr.plane.frame (d7 _ lp) (by omega)
  obtain ⟨g2, sm, g3, e1, e2, e3, e4, e5⟩ := addAssign (· + ·) junkF plane1 hi h0 h2 hdv hdvs
    (by rw [d2, hsvs]) d6 (by omega)
  refine ⟨{ st with heapF := g3, heapU := u3 }, ?_, ⟨?_, mask3, e3.congr ?_, low3, c2, roll3, hr.nSpec, hr.nMask, hr.nAcc⟩⟩
  · unfold blandRange
    simp only [hdv, hsv, hmv, a1, b1, c1, d1, e1, e2, Outcome.bind_ok, Outcome.pure_eq]
  · exact hr.spec.frame (by rw [e4 _ (by omega) hr.nSpec, d7 _ ls]) (show st.heapF.next ≤ g3.next by omega)
  · intro i' c _ hc hcN
    unfold onRange
    by_cases hin : i' = i ∧ lo ≤ c ∧ c < hi'
    · rw [if_pos hin, if_pos hin]
      have ec : s + (c - lo) = c + (s - lo) := by omega
      simp only [rowSpecs_idx, flat, List.getD_cons_zero, List.getD_cons_succ, ec, Int.add_zero,
        Int.toNat_natCast, addF]
    · rw [if_neg hin, if_neg hin]

theorem blandDesmear_rep {ops : SlopeOps S} {D N T : Nat} {inp : BlandInput F}
    {grid : Nat → Int → F} {mask : Nat → Int → UInt8} (junkF : Int → F) (junkU : Int → UInt8)
    {r : Rate S} {i t : Nat} (hi : i < D) (ht : t < T) {off : Int} {k : Nat}
    (hfit : FitsAt N (ops.nonneg r.slope) r.span off k)
    {st : BlandState F} {P : Nat → Int → F} {L H R : Nat → Int → UInt8}
    (hr : RepB D N T inp grid mask st P L H R) :
    ∃ st', blandDesmear ops inp junkF junkU N r i t off k st = .ok st' ∧
      RepB D N T inp grid mask st'
        (onRow i (stepCell (useF grid r.desmear) N (ops.nonneg r.slope) r.span t off k) P)
        (onRow i (stepCell (useC mask flagLowSK) N (ops.nonneg r.slope) r.span t off k) L)
        (onRow i (stepCell (useC mask flagHighSK) N (ops.nonneg r.slope) r.span t off k) H)
        (onRow i (stepCell (useC mask flagRolloff) N (ops.nonneg r.slope) r.span t off k) R) := by
  unfold blandDesmear
  cases hup : ops.nonneg r.slope with
  | true =>
    rw [hup] at hfit
    simp only [FitsAt, if_true] at hfit
    obtain ⟨a', ha', hrep⟩ := blandRange_rep hr junkF junkU (desmear := r.desmear) hi ht (lo := 0)
      (hi' := (N : Int) - (off + k)) (s := off + k) (se := N)
      (by omega) (by omega) (by omega) (by omega) (by omega) (by omega)
    refine ⟨a', by simpa using ha', hrep.spec, hrep.mask, hrep.plane.congr ?_, hrep.lowsk.congr ?_,
      hrep.highsk.congr ?_, hrep.rolloff.congr ?_, hrep.nSpec, hrep.nMask, hrep.nAcc⟩
    all_goals
      intro i' c _ hc hcN
      refine onRange_eq_stepCell_up _ _ _ _ _ _ _ _ ?_ _ _ _ hc
      intro c x
      simp [addF, addC, useF, useC]
  | false =>
    rw [hup] at hfit
    simp only [FitsAt, Bool.false_eq_true, if_false] at hfit
    obtain ⟨f1, f2, f3, f4⟩ := hfit
    by_cases hneg : -r.span + (off - k) < 0
    · obtain ⟨a', ha', hrep⟩ := blandRange_rep hr junkF junkU (desmear := r.desmear) hi ht
        (lo := -r.span - (-r.span + (off - k))) (hi' := (N : Int))
        (s := -r.span + (off - k) - (-r.span + (off - k))) (se := N + (off - k))
        (by omega) (by omega) (by omega) (by omega) (by omega) (by omega)
      refine ⟨a', by simpa [hneg] using ha', hrep.spec, hrep.mask, hrep.plane.congr ?_,
        hrep.lowsk.congr ?_, hrep.highsk.congr ?_, hrep.rolloff.congr ?_, hrep.nSpec, hrep.nMask,
        hrep.nAcc⟩
      all_goals
        intro i' c _ hc hcN
        refine onRange_eq_stepCell_down _ _ _ _ _ _ _ _ _ ?_ _ _ _ hcN (by omega)
        intro c x
        have e : c + (-r.span + (off - k) - (-r.span + (off - k)) -
          (-r.span - (-r.span + (off - k)))) = c + (off - k) := by omega
        simp only [addF, addC, useF, useC, e]
    · obtain ⟨a', ha', hrep⟩ := blandRange_rep hr junkF junkU (desmear := r.desmear) hi ht
        (lo := -r.span) (hi' := (N : Int)) (s := -r.span + (off - k)) (se := N + (off - k))
        (by omega) (by omega) (by omega) (by omega) (by omega) (by omega)
      refine ⟨a', by simpa [hneg] using ha', hrep.spec, hrep.mask, hrep.plane.congr ?_,
        hrep.lowsk.congr ?_, hrep.highsk.congr ?_, hrep.rolloff.congr ?_, hrep.nSpec, hrep.nMask,
        hrep.nAcc⟩
      all_goals
        intro i' c _ hc hcN
        refine onRange_eq_stepCell_down _ _ _ _ _ _ _ _ _ ?_ _ _ _ hcN (by omega)
        intro c x
        have e : c + (-r.span + (off - k) - (-r.span)) = c + (off - k) := by omega
        simp only [addF, addC, useF, useC, e]

/-- The four grids after transforming row `i` with the four consumers. -/
def RepBRow (D N T : Nat) (inp : BlandInput F) (st : BlandState F) (i : Nat) (P : Nat → Int → F)
    (L H R : Nat → Int → UInt8) (grid : Nat → Int → F) (mask : Nat → Int → UInt8) (desmear : Int)
    (samples : Int → List (Nat × Int)) : Prop :=
  RepB D N T inp grid mask st (onRow i (fun c => consume (useF grid desmear) (samples c)) P)
    (onRow i (fun c => consume (useC mask flagLowSK) (samples c)) L)
    (onRow i (fun c => consume (useC mask flagHighSK) (samples c)) H)
    (onRow i (fun c => consume (useC mask flagRolloff) (samples c)) R)

theorem RepB.congr {D N T : Nat} {inp : BlandInput F} {st : BlandState F} {grid : Nat → Int → F}
    {mask : Nat → Int → UInt8} {P P' : Nat → Int → F} {L H R L' H' R' : Nat → Int → UInt8}
    (hr : RepB D N T inp grid mask st P L H R)
    (hP : ∀ (i : Nat) (c : Int), P i c = P' i c) (hL : ∀ (i : Nat) (c : Int), L i c = L' i c)
    (hH : ∀ (i : Nat) (c : Int), H i c = H' i c) (hR : ∀ (i : Nat) (c : Int), R i c = R' i c) :
    RepB D N T inp grid mask st P' L' H' R' :=
  ⟨hr.spec, hr.mask, hr.plane.congr fun i c _ _ _ => hP i c, hr.lowsk.congr fun i c _ _ _ => hL i c,
   hr.highsk.congr fun i c _ _ _ => hH i c, hr.rolloff.congr fun i c _ _ _ => hR i c, hr.nSpec,
   hr.nMask, hr.nAcc⟩

theorem blandDrift_rep {ops : SlopeOps S} {D N T : Nat} {inp : BlandInput F}
    {grid : Nat → Int → F} {mask : Nat → Int → UInt8} (junkF : Int → F) (junkU : Int → UInt8)
    {rates : List (Rate S)} {r : Rate S} {i : Nat} (hri : rates[i]? = some r)
    (hi : i < D) {off : Nat → Int}
    (hoff : ∀ t < T, ops.offAt r.slope t = .ok (off t))
    (hfit : ∀ t < T, ∀ k < r.desmear.toNat, FitsAt N (ops.nonneg r.slope) r.span (off t) k)
    {st : BlandState F} {P : Nat → Int → F} {L H R : Nat → Int → UInt8}
    (hr : RepB D N T inp grid mask st P L H R) :
    ∃ st', blandDrift ops inp junkF junkU T N rates i st = .ok st' ∧
      RepBRow D N T inp st' i P L H R grid mask r.desmear
        (path N T (ops.nonneg r.slope) r.span r.desmear.toNat off) := by
  unfold blandDrift
  rw [hri]
  refine forLoop_inv (fun T' st' => RepBRow D N T inp st' i P L H R grid mask r.desmear
        (path N T' (ops.nonneg r.slope) r.span r.desmear.toNat off)) ?_ ?_
  · refine hr.congr ?_ ?_ ?_ ?_ <;>
    · intro i' c
      simp [onRow, path, consume]
  · intro t s1 ht hrep
    have key : ∃ s2, forLoop r.desmear.toNat
        (fun k s => blandDesmear ops inp junkF junkU N r i t (off t) k s) s1 = .ok s2 ∧
        RepBRow D N T inp s2 i
          (onRow i (fun c => consume (useF grid r.desmear)
            (path N t (ops.nonneg r.slope) r.span r.desmear.toNat off c)) P)
          (onRow i (fun c => consume (useC mask flagLowSK)
            (path N t (ops.nonneg r.slope) r.span r.desmear.toNat off c)) L)
          (onRow i (fun c => consume (useC mask flagHighSK)
            (path N t (ops.nonneg r.slope) r.span r.desmear.toNat off c)) H)
          (onRow i (fun c => consume (useC mask flagRolloff)
            (path N t (ops.nonneg r.slope) r.span r.desmear.toNat off c)) R) grid mask r.desmear
          (timeSamples N (ops.nonneg r.slope) r.span t (off t) r.desmear.toNat) := by
      refine forLoop_inv (fun d s' => RepBRow D N T inp s' i _ _ _ _ grid mask r.desmear
        (timeSamples N (ops.nonneg r.slope) r.span t (off t) d)) ?_ ?_
      · refine RepB.congr hrep ?_ ?_ ?_ ?_ <;>
        · intro i' c
          simp [onRow, timeSamples, consume]
      · intro k a1 hk hrep1
        obtain ⟨a2, ha2, hrep2⟩ := blandDesmear_rep junkF junkU hi ht (hfit t ht k hk) hrep1
        refine ⟨a2, ha2, ?_⟩
        simp only [onRow_onRow] at hrep2
        unfold RepBRow
        simpa only [timeSamples_succ', onRow_onRow] using hrep2
    obtain ⟨s2, h1, h2⟩ := key
    refine ⟨s2, by simp only [blandTime, hoff t ht, Outcome.bind_ok, h1], ?_⟩
    unfold RepBRow at h2 ⊢
    simp only [onRow_onRow] at h2
    simpa only [path_succ, consume_append'] using h2

theorem allocFilled_rep (v : V) (junk : Int → V) (h : Heap V) (D N : Nat) :
    ∃ h' a, allocFilled v junk h [(D : Int), (N : Int)] = .ok (h', a) ∧ a.blk = h.next ∧
      Rep2 D N h' a (fun _ _ => v) ∧ h.Frame h' ∧ h'.next = h.next + 1 := by
  obtain ⟨p1, p2, p3, p4, p5, p6, p7⟩ := alloc_props h [(D : Int), (N : Int)] junk
    (by intro s hs; simp at hs; omega)
  obtain ⟨h', e1, e2, e3⟩ := fill_spec v (alloc h [(D : Int), (N : Int)] junk).1
    (alloc h [(D : Int), (N : Int)] junk).2 p2 p4 p3
  obtain ⟨q1, q2, q3⟩ := fresh_of_updated (h := h) p7 p5 p6 e2 e3
  refine ⟨h', _, ?_, p5, ⟨⟨p1, p2, by omega, ?_⟩, p3⟩, q2, q3⟩
  · unfold allocFilled
    simp only [e1, Outcome.bind_ok, Outcome.pure_eq]
  · intro i c hi hc hN
    exact q1 _ (by rw [p1]; exact valid2_mk (by omega) (by omega))

theorem integrateBland_rep [Zero F] {ops : SlopeOps S} {N T : Nat} {inp : BlandInput F}
    {grid : Nat → Int → F} {mask : Nat → Int → UInt8} (junkF : Int → F) (junkU : Int → UInt8)
    (hspec : Reads T N inp.heapF inp.spec grid) (hmask : Reads T N inp.heapU inp.mask mask)
    {rates : List (Rate S)} {off : Nat → Nat → Int} (hoff : OffsetsAre ops rates T off)
    (hfit : ∀ i r, rates[i]? = some r → Fits N T (ops.nonneg r.slope) r.span r.desmear (off i)) :
    ∃ b, integrateBland ops junkF junkU inp rates = .ok b ∧
      b.plane.shape = [(rates.length : Int), (N : Int)] ∧
      ∀ i r, rates[i]? = some r → ∀ c : Int, 0 ≤ c → c < N →
      let p := path N T (ops.nonneg r.slope) r.span r.desmear.toNat (off i) c
      b.heapF.get b.plane [(i : Int), c] =
          some (pathSum grid r.desmear p / ((T : Int) : F)) ∧
        b.heapU.get b.lowsk [(i : Int), c] = some (UInt8.ofNat (pathFlags mask flagLowSK p)) ∧
        b.heapU.get b.highsk [(i : Int), c] = some (UInt8.ofNat (pathFlags mask flagHighSK p)) ∧
        b.heapU.get b.rolloff [(i : Int), c] =
          some (UInt8.ofNat (pathFlags mask flagRolloff p)) := by
  have ls := hspec.live
  have lm := hmask.live
  obtain ⟨hf, pl, a1, a2, a3, a4, a5⟩ := allocFilled_rep (0 : F) junkF inp.heapF rates.length N
  obtain ⟨u1, ro, b1, b2, b3, b4, b5⟩ := allocFilled_rep (0 : UInt8) junkU inp.heapU rates.length N
  obtain ⟨u2, lo, c1, c2, c3, c4, c5⟩ := allocFilled_rep (0 : UInt8) junkU u1 rates.length N
  obtain ⟨u3, hi, d1, d2, d3, d4, d5⟩ := allocFilled_rep (0 : UInt8) junkU u2 rates.length N
  let st0 : BlandState F := { heapF := hf, heapU := u3, plane := pl, rolloff := ro, lowsk := lo,
                              highsk := hi }
  have hinit : RepB rates.length N T inp grid mask st0 (fun _ _ => 0) (fun _ _ => 0) (fun _ _ => 0)
      (fun _ _ => 0) := by
    refine ⟨hspec.frame (a4 _ ls) (by simp only [st0]; omega), hmask.frame ?_ ?_, a3,
      c3.frame ?_ ?_, d3, b3.frame ?_ ?_, ?_, ⟨?_, ?_, ?_⟩, ⟨?_, ?_, ?_⟩⟩ <;> simp only [st0]
    · rw [d4 _ (by omega), c4 _ (by omega), b4 _ lm]
    · omega
    · rw [d4 _ (by omega)]
    · omega
    · rw [d4 _ (by omega), c4 _ (by omega)]
    · omega
    all_goals omega
  let pth : Nat → Int → List (Nat × Int) := fun i c =>
    match rates[i]? with
    | some r => path N T (ops.nonneg r.slope) r.span r.desmear.toNat (off i) c
    | none => []
  let dsm : Nat → Int := fun i => match rates[i]? with | some r => r.desmear | none => 0
  obtain ⟨s, hs, hrep⟩ := forLoop_inv (n := rates.length)
    (body := blandDrift ops inp junkF junkU T N rates) (s := st0)
    (fun n a => RepB rates.length N T inp grid mask a
      (fun i c => if i < n then consume (useF grid (dsm i)) (pth i c) 0 else 0)
      (fun i c => if i < n then consume (useC mask flagLowSK) (pth i c) 0 else 0)
      (fun i c => if i < n then consume (useC mask flagHighSK) (pth i c) 0 else 0)
      (fun i c => if i < n then consume (useC mask flagRolloff) (pth i c) 0 else 0))
    (by simpa using hinit)
    (by
      intro i a hi hrep
      have hri : rates[i]? = some rates[i] := List.getElem?_eq_getElem hi
      obtain ⟨a', ha', hrep'⟩ := blandDrift_rep junkF junkU hri hi (hoff i _ hri)
        (fun t ht k hk => (hfit i _ hri).at ht hk) hrep
      refine ⟨a', ha', RepB.congr hrep' ?_ ?_ ?_ ?_⟩ <;>
      · intro i' c
        unfold onRow
        by_cases e : i' = i
        · subst e
          simp [pth, dsm, hri]
        · simp only [e, if_false]
          by_cases h1 : i' < i
          · rw [if_pos h1, if_pos (by omega)]
          · rw [if_neg h1, if_neg (by omega)])
  obtain ⟨h', q, e1, e2, e3, e4, e5, e6, e7, e8⟩ := scalarOp_full (fun x => x / ((T : Int) : F))
    s.heapF s.plane junkF _ hrep.plane.wf hrep.plane.contains hrep.plane.live
  refine ⟨{ s with heapF := h', plane := q }, ?_, by rw [e2, hrep.plane.shape], ?_⟩
  · unfold integrateBland
    rw [hspec.shape]
    simp only [a1, b1, c1, d1, Outcome.bind_ok, Outcome.pure_eq, Int.toNat_natCast]
    rw [hs]
    simp only [e1, Outcome.bind_ok]
  intro i r hr c hc hN
  have hi : i < rates.length := by
    by_contra h
    rw [List.getElem?_eq_none (by omega)] at hr
    cases hr
  have h1 := hrep.lowsk.val i c hi hc hN
  have h2 := hrep.highsk.val i c hi hc hN
  have h3 := hrep.rolloff.val i c hi hc hN
  have h0 := e6 [(i : Int), c] (by
    rw [e2, hrep.plane.shape]; exact valid2_mk (by omega) (by omega))
  simp only [hi, if_true, pth, dsm, hr, consume_useC, UInt8.zero_add] at h1 h2 h3
  refine ⟨?_, h1, h2, h3⟩
  rw [h0]
  simp only [flat, List.getD_cons_zero, List.getD_cons_succ, Int.toNat_natCast, hi, if_true, pth,
    dsm, hr]
  rfl

end

end Bliss.Drift
