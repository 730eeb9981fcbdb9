import Verif.Flag.Model
import Verif.Nd.Props
import Mathlib.Tactic.Linarith
import Mathlib.Tactic.IntervalCases

/-!
# C60: flagging the filter rolloff
-/

namespace Bliss.Flag

open Bliss.Nd Bliss.Stat

variable {F : Type}

/-- The frequency channel of an element of a mask. -/
def chan (j : List Int) : Int := j.getD 1 0

/-- A slice of axis 1 with in-range bounds, whatever way they are written. -/
theorem slice_axis1 {a : Arr} {d : Dim} {start stop s e : Int} (hd : a.dims[1]? = some d)
    (hs : s = if start < 0 then d.size + start - 1 else start)
    (he : e = if stop < 0 then d.size + stop - 1 else if stop > d.size then d.size else stop)
    (h0 : start ≤ d.size) (hse : s ≤ e) :
    slice a 1 start stop 1 =
      .ok { a with dims := a.dims.set 1 ⟨e - s, d.stride, d.offset + s * d.stride⟩ } := by
  unfold slice
  have h1 : ¬ ((1 : Int) < 0) := by omega
  have e1 : (1 : Int).toNat = 1 := rfl
  simp only [h1, if_false, e1, hd]
  rw [if_neg (by omega)]
  simp only [← hs, ← he]
  rw [if_neg (by omega), if_neg (by omega)]
  simp

theorem validIdx_length {shape idx : List Int} (h : ValidIdx shape idx) :
    idx.length = shape.length := (List.Forall₂.length_eq h).symm

/-- The elements of a slice of axis 1. -/
theorem valid_set1 {dims : List Dim} {d d' : Dim} (hd : dims[1]? = some d) {j : List Int} {s : Int}
    (hj : ValidIdx (dims.map Dim.size) j) (h1 : s ≤ chan j) (h2 : chan j < s + d'.size) :
    ∃ i, ValidIdx ((dims.set 1 d').map Dim.size) i ∧ sliceIdx 1 s 1 i = j := by
  match dims, j, hd, hj with
  | x :: y :: rest, a :: b :: js, hd, hj =>
    simp only [chan, List.getD_cons_succ, List.getD_cons_zero] at h1 h2
    simp only [List.map_cons, ValidIdx, List.forall₂_cons] at hj
    refine ⟨a :: (b - s) :: js, ?_, ?_⟩
    · simp only [List.set_cons_succ, List.set_cons_zero, List.map_cons, ValidIdx, List.forall₂_cons]
      exact ⟨hj.1, ⟨by omega, by omega⟩, hj.2.2⟩
    · simp only [sliceIdx, List.modify_succ_cons, List.modify_zero_cons]
      congr 2; omega
  | [_], _, hd, _ => simp at hd
  | [], _, hd, _ => simp at hd
  | _ :: _ :: _, [], _, hj => simp [ValidIdx] at hj
  | _ :: _ :: _, [_], _, hj => simp [ValidIdx] at hj

theorem chan_valid1 {dims : List Dim} {d d' : Dim} (hd : dims[1]? = some d) {i : List Int}
    (hi : ValidIdx ((dims.set 1 d').map Dim.size) i) : 0 ≤ chan i ∧ chan i < d'.size := by
  match dims, i, hd, hi with
  | x :: y :: rest, a :: b :: js, _, hi =>
    simp only [List.set_cons_succ, List.set_cons_zero, List.map_cons, ValidIdx,
      List.forall₂_cons] at hi
    exact hi.2.1
  | [_], _, hd, _ => simp at hd
  | [], _, hd, _ => simp at hd
  | _ :: _ :: _, [], _, hj => simp [ValidIdx] at hj
  | _ :: _ :: _, [_], _, hj => simp [ValidIdx] at hj

theorem chan_valid {shape : List Int} {n : Int} (hn : shape[1]? = some n) {i : List Int}
    (hi : ValidIdx shape i) : 0 ≤ chan i ∧ chan i < n := by
  match shape, i, hn, hi with
  | x :: y :: rest, a :: b :: js, hn, hi =>
    simp only [ValidIdx, List.forall₂_cons] at hi
    have : y = n := by simpa using hn
    subst this
    exact hi.2.1
  | [_], _, hd, _ => simp at hd
  | [], _, hd, _ => simp at hd
  | _ :: _ :: _, [], _, hj => simp [ValidIdx] at hj
  | _ :: _ :: _, [_], _, hj => simp [ValidIdx] at hj

theorem chan_sliceIdx {i : List Int} {s : Int} (hl : 2 ≤ i.length) :
    chan (sliceIdx 1 s 1 i) = s + chan i := by
  match i, hl with
  | a :: b :: js, _ => simp [sliceIdx, chan]

/-- One increment: exactly the channels `s ≤ c < e` of the mask change, by one. -/
theorem bump_spec {mask : Arr} {d : Dim} {start stop s e : Int} (hd : mask.dims[1]? = some d)
    (hs : s = if start < 0 then d.size + start - 1 else start)
    (he : e = if stop < 0 then d.size + stop - 1 else if stop > d.size then d.size else stop)
    (h0 : start ≤ d.size) (h1 : 0 ≤ s) (hse : s ≤ e) (hed : e ≤ d.size) (hwf : mask.WF)
    (hdis : mask.Distinct) (h : Heap (Val F)) (hb : mask.blk < h.next) {M : List Int → UInt8}
    (hM : h.Contains mask (fun j => .flag (M j))) (junk : Int → Val F) :
    ∃ h', bump mask start stop junk h = .ok h' ∧
      h'.Contains mask (fun j => .flag (M j + if s ≤ chan j ∧ chan j < e then 1 else 0)) ∧
      (∀ b, b < h.next → b ≠ mask.blk → h'.mem b = h.mem b) ∧ h.next ≤ h'.next ∧
      ∀ p, (∀ j, ValidIdx mask.shape j → addr mask.dims j ≠ p) →
        h'.mem mask.blk p = h.mem mask.blk p := by
  have hsl := slice_axis1 hd hs he h0 hse
  generalize hv : ({ mask with dims := mask.dims.set 1 ⟨e - s, d.stride, d.offset + s * d.stride⟩ }
    : Arr) = v at hsl
  have key : ∀ i, 0 ≤ i → i < e - s → 0 ≤ s + i * 1 ∧ s + i * 1 < d.size := by
    intro i a b; omega
  have view : ViewOf v mask (sliceIdx 1 s 1) := by
    subst hv
    refine ⟨rfl, fun i hi => ?_, fun i hi => ?_⟩
    · exact (set_view (d' := ⟨e - s, d.stride, d.offset + s * d.stride⟩) hd (by simp) rfl key hi).1
    · exact (set_view (d' := ⟨e - s, d.stride, d.offset + s * d.stride⟩) hd (by simp) rfl key hi).2
  have hvwf : v.WF := by
    subst hv
    intro x hx
    rcases List.mem_or_eq_of_mem_set hx with h2 | rfl
    · exact hwf x h2
    · simp only; omega
  have hvd : v.Distinct := view.distinct (fun i j _ _ e => sliceIdx_inj (by omega) e) hdis
  have hvM := view.contains hM
  obtain ⟨hA, r, e1, r1, r2, r3, r4⟩ := C48_scalar_op (fun x => x.add (.flag rolloffFlag)) h v junk _
    hvwf hvM (by rw [view.blk]; exact hb)
  have hn : hA.next = h.next + 1 := by
    have := e1
    unfold scalarOp at this
    obtain ⟨p1, p2, p3, p4, p5, p6, p7⟩ := alloc_props h v.shape junk (shape_nonneg hvwf)
    obtain ⟨h', q1, q2, q3⟩ := scalarLoop_spec (fun x => x.add (.flag rolloffFlag))
      (alloc h v.shape junk).1 (alloc h v.shape junk).2 v
      p1.symm p2 (Contains.frame hvM (by rw [view.blk]; exact hb) p7) p4 p3
      (fun e => by have := view.blk; omega)
    simp only [q1, Outcome.bind_ok, Outcome.pure_eq, Outcome.ok.injEq, Prod.mk.injEq] at this
    rw [← this.1, q3, p6]
  have hvm : hA.Mapped v := by
    intro i hi
    have := (Contains.frame hvM (by rw [view.blk]; exact hb) r4) i hi
    rw [this]; simp
  obtain ⟨hB, e2, ⟨u1, u2⟩, e3⟩ := unaryLoop_spec id hA v r r1 hvwf r3 hvm hvd
    (fun e => absurd (r2.symm.trans (e.trans view.blk)) (by omega))
  refine ⟨hB, ?_, ?_, ?_, by omega, ?_⟩
  · simp only [bump, hsl, Outcome.bind_ok, e1, assignSlice]
    exact e2
  · intro j hj
    have hjl := validIdx_length hj
    have hdl : 2 ≤ mask.dims.length := by
      have := (List.getElem?_eq_some_iff.mp hd).1; omega
    by_cases hc : s ≤ chan j ∧ chan j < e
    · simp only [if_pos hc]
      have hj' : ValidIdx (mask.dims.map Dim.size) j := hj
      obtain ⟨i, hi, rfl⟩ := valid_set1 (d' := ⟨e - s, d.stride, d.offset + s * d.stride⟩) hd hj'
        hc.1 (by simp only; omega)
      have hi' : ValidIdx v.shape i := by subst hv; exact hi
      rw [← view.get hB hi', u1 i hi']
      rfl
    · simp only [if_neg hc]
      have hne : ∀ i, ValidIdx v.shape i → sliceIdx 1 s 1 i ≠ j := by
        rintro i hi rfl
        apply hc
        have hil := validIdx_length hi
        have hvl : v.shape.length = mask.dims.length := by subst hv; simp [Arr.shape]
        rw [chan_sliceIdx (by omega)]
        have hi2 : ValidIdx ((mask.dims.set 1 ⟨e - s, d.stride, d.offset + s * d.stride⟩).map Dim.size) i := by
          subst hv; exact hi
        have := chan_valid1 hd hi2
        simp only at this
        omega
      have hg : hB.get mask j = hA.get mask j := by
        simp only [Heap.get]
        refine u2 mask.blk (addr mask.dims j) (fun _ i hi he => ?_)
        rw [view.addr i hi] at he
        exact hne i hi (hdis _ _ (view.valid i hi) hj he)
      rw [hg, (Contains.frame hM hb r4) j hj]
      simp
  · intro b hb1 hb2
    rw [← r4 b hb1]
    funext i
    exact u2 b i (fun e => absurd (e.trans view.blk) hb2)
  · intro p hp
    rw [← r4 mask.blk hb]
    refine u2 mask.blk p (fun _ i hi he => ?_)
    rw [view.addr i hi] at he
    exact hp _ (view.valid i hi) he

theorem dims1 {mask : Arr} {n : Int} (hn : mask.shape[1]? = some n) :
    ∃ d, mask.dims[1]? = some d ∧ d.size = n := by
  simp only [Arr.shape, List.getElem?_map, Option.map_eq_some_iff] at hn
  exact hn

/-- The effect of one evaluation of the deferred mask with a width of `k ≥ 1` channels out of
`n ≥ k + 1`: `k` channels at the lower edge and `k + 1` at the upper edge are incremented. -/
theorem rolloff_spec {mask : Arr} {n k : Int} {width : Int → Int} (hn : mask.shape[1]? = some n)
    (hk : width n = k) (h1 : 1 ≤ k) (h2 : k + 1 ≤ n) (hwf : mask.WF) (hdis : mask.Distinct)
    (h : Heap (Val F)) (hb : mask.blk < h.next) {M : List Int → UInt8}
    (hM : h.Contains mask (fun j => .flag (M j))) (junk1 junk2 : Int → Val F) :
    ∃ h', rolloff width mask junk1 junk2 h = .ok h' ∧
      h'.Contains mask (fun j => .flag (M j + ((if chan j < k then 1 else 0) +
        if n - k - 1 ≤ chan j then 1 else 0))) ∧
      (∀ b, b < h.next → b ≠ mask.blk → h'.mem b = h.mem b) ∧ h.next ≤ h'.next := by
  obtain ⟨d, hd, rfl⟩ := dims1 hn
  obtain ⟨hA, a1, a2, a3, a4, _⟩ := bump_spec (start := 0) (stop := k) (s := 0) (e := k) hd
    (by simp) (by rw [if_neg (by omega), if_neg (by omega)]) (by omega) (by omega) (by omega)
    (by omega) hwf hdis h hb hM junk1
  obtain ⟨hB, b1, b2, b3, b4, _⟩ := bump_spec (start := -k) (stop := d.size) (s := d.size - k - 1)
    (e := d.size) hd (by rw [if_pos (by omega)]; ring)
    (by rw [if_neg (by omega), if_neg (by omega)]) (by omega) (by omega) (by omega)
    (by omega) hwf hdis hA (by omega) a2 junk2
  refine ⟨hB, ?_, ?_, ?_, by omega⟩
  · simp only [rolloff, hn, hk, a1, Outcome.bind_ok, b1]
  · intro j hj
    rw [b2 j hj]
    have hc := chan_valid hn hj
    have e1 : (0 ≤ chan j ∧ chan j < k) ↔ chan j < k := by omega
    have e2 : (d.size - k - 1 ≤ chan j ∧ chan j < d.size) ↔ d.size - k - 1 ≤ chan j := by omega
    simp only [e1, e2, UInt8.add_assoc]
  · intro b hb1 hb2
    rw [b3 b (by omega) hb2, a3 b hb1 hb2]

/-! ## The property -/

/-- Adding the rolloff flag where it is not set yet is setting it. -/
theorem add_flag_or (m : UInt8) (h : m &&& 1 = 0) : m + 1 = m ||| 1 := by
  have key : ∀ x : Fin 256, (UInt8.ofNat x.val) &&& 1 = 0 →
      (UInt8.ofNat x.val) + 1 = (UInt8.ofNat x.val) ||| 1 := by decide +kernel
  have hm : m = UInt8.ofNat (⟨m.toNat, UInt8.toNat_lt m⟩ : Fin 256).val := by simp
  rw [hm] at h ⊢
  exact key _ h

/-- **C60 (first read of the mask)**. Take a channel whose mask is an array with `n` channels,
nowhere flagged for rolloff yet, and a width that comes to `k ≥ 1` channels, `2 k + 1 ≤ n`. Then
`flag_filter_rolloff` returns a channel whose mask, when read for the first time, has the rolloff
flag set in addition to its former flags in the lowest `k` channels and in the highest `k + 1`
channels, at every time step, and is unchanged elsewhere; no other array changes.

Missing from C60: it is `k + 1` channels and not `k` at the upper edge, and the other cases are
different (`C60_upper_edge`, `C60_zero_width`, `C60_full_width_ub`, `C60_reads`, `C60_second_read`). -/
theorem C60_first_read_partial (width : Int → Int) (a : Arr) (n k : Int) (M : List Int → UInt8)
    (h : Heap (Val F)) (junk1 junk2 : Int → Val F) (hn : a.shape[1]? = some n) (hk : width n = k)
    (h1 : 1 ≤ k) (h2 : 2 * k + 1 ≤ n) (hwf : a.WF) (hdis : a.Distinct) (hb : a.blk < h.next)
    (hM : h.Contains a (fun j => .flag (M j)))
    (hclear : ∀ j, ValidIdx a.shape j → M j &&& rolloffFlag = 0) :
    ∃ s, flagRolloff width junk1 junk2 (.arr a) h = .ok (h, s) ∧
      ∃ h' m, s.get h = .ok (h', m) ∧ m.shape = a.shape ∧
        h'.Contains m (fun j => .flag (if chan j < k ∨ n - (k + 1) ≤ chan j
          then M j ||| rolloffFlag else M j)) ∧
        ∀ b, b < h.next → b ≠ a.blk → h'.mem b = h.mem b := by
  refine ⟨_, rfl, ?_⟩
  obtain ⟨h', e1, e2, e3, _⟩ := rolloff_spec hn hk h1 (by omega) hwf hdis h hb hM junk1 junk2
  refine ⟨h', a, by simp [MaskSrc.get, e1], rfl, ?_, e3⟩
  intro j hj
  rw [e2 j hj]
  have hc := chan_valid hn hj
  by_cases c1 : chan j < k
  · have c2 : ¬ n - k - 1 ≤ chan j := by omega
    simp only [c1, c2, if_true, if_false, true_or, rolloffFlag]
    rw [UInt8.add_zero, add_flag_or _ (hclear j hj)]
  · by_cases c2 : n - k - 1 ≤ chan j
    · have c3 : n - (k + 1) ≤ chan j := by omega
      simp only [c1, c2, c3, if_true, if_false, or_true, rolloffFlag]
      rw [UInt8.zero_add, add_flag_or _ (hclear j hj)]
    · have c3 : ¬ n - (k + 1) ≤ chan j := by omega
      simp [c1, c2, c3]

/-- **Violation of C60: the upper edge is one channel too wide.** In the situation of
`C60_first_read_partial`, channel `n - k - 1`, which is not one of the `k` channels at either edge,
is flagged. -/
theorem C60_upper_edge (width : Int → Int) (a : Arr) (n k : Int) (M : List Int → UInt8)
    (h : Heap (Val F)) (junk1 junk2 : Int → Val F) (hn : a.shape[1]? = some n) (hk : width n = k)
    (h1 : 1 ≤ k) (h2 : 2 * k + 1 ≤ n) (hwf : a.WF) (hdis : a.Distinct) (hb : a.blk < h.next)
    (hM : h.Contains a (fun j => .flag (M j)))
    (hclear : ∀ j, ValidIdx a.shape j → M j &&& rolloffFlag = 0)
    (j : List Int) (hj : ValidIdx a.shape j) (hc : chan j = n - k - 1) :
    (k ≤ chan j ∧ chan j < n - k) ∧
    ∃ s, flagRolloff width junk1 junk2 (.arr a) h = .ok (h, s) ∧
      ∃ h' m, s.get h = .ok (h', m) ∧ h'.get m j = some (.flag (M j ||| rolloffFlag)) := by
  obtain ⟨s, e1, h', m, e2, e3, e4, _⟩ :=
    C60_first_read_partial width a n k M h junk1 junk2 hn hk h1 h2 hwf hdis hb hM hclear
  refine ⟨by omega, s, e1, h', m, e2, ?_⟩
  rw [e4 j (by rw [e3]; exact hj)]
  simp only [if_pos (show chan j < k ∨ n - (k + 1) ≤ chan j by omega)]

/-- **Violation of C60: the channel that was passed in changes too.** Reading the mask of the
returned channel once modifies the mask of the original channel (both are the same array). -/
theorem C60_original_changes (width : Int → Int) (a : Arr) (n k : Int) (M : List Int → UInt8)
    (h : Heap (Val F)) (junk1 junk2 : Int → Val F) (hn : a.shape[1]? = some n) (hk : width n = k)
    (h1 : 1 ≤ k) (h2 : k + 1 ≤ n) (hwf : a.WF) (hdis : a.Distinct) (hb : a.blk < h.next)
    (hM : h.Contains a (fun j => .flag (M j))) (j : List Int) (hj : ValidIdx a.shape j)
    (hc : chan j = 0) :
    ∃ s h' m, flagRolloff width junk1 junk2 (.arr a) h = .ok (h, s) ∧ s.get h = .ok (h', m) ∧
      (MaskSrc.arr a : MaskSrc F).get h' = .ok (h', a) ∧
      h.get a j = some (.flag (M j)) ∧ h'.get a j ≠ some (.flag (M j)) := by
  obtain ⟨h', e1, e2, _, _⟩ := rolloff_spec hn hk h1 h2 hwf hdis h hb hM junk1 junk2
  refine ⟨_, h', a, rfl, by simp [MaskSrc.get, e1], rfl, hM j hj, ?_⟩
  rw [e2 j hj]
  have hne : ∀ x y : UInt8, y ≠ 0 → x + y ≠ x := by
    intro x y hy e
    apply hy
    have h3 := congrArg (fun z => z - x) e
    simp only [UInt8.sub_self] at h3
    rw [← h3, UInt8.add_comm, UInt8.add_sub_cancel]
  simp only [ne_eq, Option.some.injEq, Val.flag.injEq]
  apply hne
  rw [if_pos (by omega)]
  split <;> decide

/-- **Violation of C60: width zero flags the whole band.** A width that rounds to no channel marks
every channel. -/
theorem C60_zero_width (width : Int → Int) (a : Arr) (n : Int) (M : List Int → UInt8)
    (h : Heap (Val F)) (junk1 junk2 : Int → Val F) (hn : a.shape[1]? = some n) (hk : width n = 0)
    (hn0 : 0 ≤ n) (hwf : a.WF) (hdis : a.Distinct) (hb : a.blk < h.next)
    (hM : h.Contains a (fun j => .flag (M j))) :
    ∃ s, flagRolloff width junk1 junk2 (.arr a) h = .ok (h, s) ∧
      ∃ h' m, s.get h = .ok (h', m) ∧ m.shape = a.shape ∧
        h'.Contains m (fun j => .flag (M j + rolloffFlag)) := by
  refine ⟨_, rfl, ?_⟩
  obtain ⟨d, hd, rfl⟩ := dims1 hn
  obtain ⟨hA, a1, a2, a3, a4, _⟩ := bump_spec (start := 0) (stop := 0) (s := 0) (e := 0) hd
    (by simp) (by rw [if_neg (by omega), if_neg (by omega)]) (by omega) (by omega) (by omega)
    (by omega) hwf hdis h hb hM junk1
  obtain ⟨hB, b1, b2, b3, b4, _⟩ := bump_spec (start := -0) (stop := d.size) (s := 0)
    (e := d.size) hd (by simp)
    (by rw [if_neg (by omega), if_neg (by omega)]) (by omega) (by omega) (by omega)
    (by omega) hwf hdis hA (by omega) a2 junk2
  refine ⟨hB, a, ?_, rfl, ?_⟩
  · simp only [MaskSrc.get, rolloff, hn, hk, a1, Outcome.bind_ok, b1, Outcome.pure_eq]
  · intro j hj
    rw [b2 j hj]
    have hc := chan_valid hn hj
    have e1 : ¬ (0 ≤ chan j ∧ chan j < 0) := by omega
    simp only [e1, if_false, if_pos hc, UInt8.add_zero, rolloffFlag]

/-- The mask after `r + 1` reads, for every `r`: the edges were incremented `r + 1` times. -/
theorem C60_reads (width : Int → Int) (a : Arr) (n k : Int) (M : List Int → UInt8)
    (h : Heap (Val F)) (junk1 junk2 : Int → Val F) (hn : a.shape[1]? = some n) (hk : width n = k)
    (h1 : 1 ≤ k) (h2 : k + 1 ≤ n) (hwf : a.WF) (hdis : a.Distinct) (hb : a.blk < h.next)
    (hM : h.Contains a (fun j => .flag (M j))) :
    ∃ s, flagRolloff width junk1 junk2 (.arr a) h = .ok (h, s) ∧
      ∀ r : Nat, ∃ h' m, readMask s r h = .ok (h', m) ∧ m.shape = a.shape ∧
        h'.Contains m (fun j => .flag (M j + UInt8.ofNat (r + 1) *
          ((if chan j < k then 1 else 0) + if n - (k + 1) ≤ chan j then 1 else 0))) := by
  refine ⟨_, rfl, fun r => ?_⟩
  induction r generalizing h M with
  | zero =>
    obtain ⟨h', e1, e2, _, _⟩ := rolloff_spec hn hk h1 h2 hwf hdis h hb hM junk1 junk2
    refine ⟨h', a, by simp [readMask, MaskSrc.get, e1], rfl, ?_⟩
    intro j hj
    rw [e2 j hj]
    simp [sub_sub]
  | succ r ih =>
    obtain ⟨h', e1, e2, _, e4⟩ := rolloff_spec hn hk h1 h2 hwf hdis h hb hM junk1 junk2
    obtain ⟨h'', m, q1, q2, q3⟩ := ih _ h' (by omega) e2
    refine ⟨h'', m, ?_, q2, ?_⟩
    · simp only [readMask]
      simp only [MaskSrc.get, e1, Outcome.bind_ok, Outcome.pure_eq] at q1 ⊢
      exact q1
    · intro j hj
      rw [q3 j hj]
      simp only [sub_sub, Option.some.injEq, Val.flag.injEq]
      rw [UInt8.add_assoc]
      congr 1
      generalize ((if chan j < k then (1 : UInt8) else 0) + if n - (k + 1) ≤ chan j then 1 else 0) = e
      have : UInt8.ofNat (r + 1 + 1) = UInt8.ofNat (r + 1) + 1 := by
        rw [UInt8.ofNat_add (r + 1) 1]; rfl
      rw [this, UInt8.add_mul, UInt8.one_mul, UInt8.add_comm]

/-- **Violation of C60: reading the mask is not repeatable.** Where the mask was clear before
flagging and the edges do not overlap, the second read shows every edge sample flagged for *low
spectral kurtosis* and not for rolloff; the 256th read shows the mask from before flagging. -/
theorem C60_second_read (width : Int → Int) (a : Arr) (n k : Int) (h : Heap (Val F))
    (junk1 junk2 : Int → Val F) (hn : a.shape[1]? = some n) (hk : width n = k)
    (h1 : 1 ≤ k) (h2 : 2 * k + 1 ≤ n) (hwf : a.WF) (hdis : a.Distinct) (hb : a.blk < h.next)
    (hM : h.Contains a (fun _ => .flag 0)) :
    ∃ s, flagRolloff width junk1 junk2 (.arr a) h = .ok (h, s) ∧
      (∃ h' m, readMask s 1 h = .ok (h', m) ∧ m.shape = a.shape ∧
        h'.Contains m (fun j => .flag
          (if chan j < k ∨ n - (k + 1) ≤ chan j then lowSkFlag else 0))) ∧
      ∃ h' m, readMask s 255 h = .ok (h', m) ∧ m.shape = a.shape ∧
        h'.Contains m (fun _ => .flag 0) := by
  obtain ⟨s, e1, e2⟩ := C60_reads width a n k (fun _ => 0) h junk1 junk2 hn hk h1 (by omega) hwf
    hdis hb hM
  refine ⟨s, e1, ?_, ?_⟩
  · obtain ⟨h', m, q1, q2, q3⟩ := e2 1
    refine ⟨h', m, q1, q2, fun j hj => ?_⟩
    rw [q3 j hj]
    simp only [lowSkFlag, Option.some.injEq, Val.flag.injEq]
    split <;> split <;> split <;> (try omega) <;> rfl
  · obtain ⟨h', m, q1, q2, q3⟩ := e2 255
    refine ⟨h', m, q1, q2, fun j hj => ?_⟩
    rw [q3 j hj]
    have : UInt8.ofNat (255 + 1) = 0 := rfl
    simp only [this, UInt8.zero_mul, UInt8.add_zero]

theorem forLoop_ub {σ : Type} (n : Nat) (body : Nat → σ → Outcome σ) (s : σ)
    (h : body 0 s = .ub) : forLoop (n + 1) body s = .ub := by
  induction n with
  | zero => simp [forLoop_succ, h]
  | succ n ih => rw [forLoop_succ, ih]; rfl

theorem foldl_mul_pos (l : List Int) (x : Int) (hx : 1 ≤ x) (h : ∀ s ∈ l, 1 ≤ s) :
    1 ≤ l.foldl (· * ·) x := by
  induction l generalizing x with
  | nil => simpa
  | cons a l ih =>
    refine ih _ ?_ (fun s hs => h s (by simp [hs]))
    have := h a (by simp)
    nlinarith

theorem foldl_offset (l : List Dim) (x : Int) :
    (l.map Dim.offset).foldl (· + ·) x = x + (l.map Dim.offset).foldl (· + ·) 0 := by
  induction l generalizing x with
  | nil => simp
  | cons a l ih => simp only [List.map_cons, List.foldl_cons]; rw [ih, ih (0 + a.offset)]; ring

theorem base_set1 {a : Arr} {d d' : Dim} (hd : a.dims[1]? = some d) :
    Arr.base { a with dims := a.dims.set 1 d' } = a.base - d.offset + d'.offset := by
  simp only [Arr.base]
  match hm : a.dims, hd with
  | x :: y :: rest, hd =>
    have : y = d := by simpa using hd
    subst this
    simp only [List.set_cons_succ, List.set_cons_zero, List.map_cons, List.foldl_cons]
    rw [foldl_offset rest, foldl_offset rest (0 + x.offset + y.offset)]
    ring
  | [_], hd => simp at hd
  | [], hd => simp at hd

/-- **Violation of C60: a width of the whole band is undefined.** If the width comes to all `n`
channels of a mask whose first element is the first of its allocation, reading the flagged mask
reads before the allocation. -/
theorem C60_full_width_ub (width : Int → Int) (a : Arr) (n : Int) (M : List Int → UInt8)
    (h : Heap (Val F)) (junk1 junk2 : Int → Val F) (hn : a.shape[1]? = some n) (hk : width n = n)
    (hpos : ∀ s ∈ a.shape, 1 ≤ s) (hdis : a.Distinct) (hb : a.blk < h.next)
    (hM : h.Contains a (fun j => .flag (M j))) (d : Dim) (hd : a.dims[1]? = some d)
    (hbefore : h.mem a.blk (a.base - d.stride) = none) :
    ∃ s, flagRolloff width junk1 junk2 (.arr a) h = .ok (h, s) ∧ s.get h = .ub := by
  refine ⟨_, rfl, ?_⟩
  obtain ⟨d', hd', hsz⟩ := dims1 hn
  rw [hd] at hd'; cases hd'
  subst hsz
  have hwf : a.WF := fun x hx => by
    have := hpos x.size (List.mem_map_of_mem hx); omega
  have hd1 : 1 ≤ d.size := hpos _ (List.mem_map_of_mem (List.mem_of_getElem? hd))
  obtain ⟨hA, a1, a2, a3, a4, a5⟩ := bump_spec (start := 0) (stop := d.size) (s := 0) (e := d.size) hd
    (by simp) (by rw [if_neg (by omega), if_neg (by omega)]) (by omega) (by omega) (by omega)
    (by omega) hwf hdis h hb hM junk1
  have hnone : hA.mem a.blk (a.base - d.stride) = none := by
    rw [a5, hbefore]
    intro j hj he
    have := hM j hj
    simp only [Heap.get, he, hbefore] at this
    cases this
  have hsl := slice_axis1 (a := a) (start := -d.size) (stop := d.size) (s := -1) (e := d.size) hd
    (by rw [if_pos (by omega)]; ring) (by rw [if_neg (by omega), if_neg (by omega)]) (by omega)
    (by omega)
  have hub : bump a (-d.size) d.size junk2 hA = .ub := by
    simp only [bump, hsl, Outcome.bind_ok]
    generalize hv : ({ a with dims := a.dims.set 1 ⟨d.size - -1, d.stride, d.offset + -1 * d.stride⟩ }
      : Arr) = v
    have hvb : v.base = a.base - d.stride := by subst hv; rw [base_set1 hd]; ring
    have hvpos : ∀ s ∈ v.shape, 1 ≤ s := by
      subst hv
      intro s hs
      simp only [Arr.shape, List.mem_map] at hs
      obtain ⟨x, hx, rfl⟩ := hs
      rcases List.mem_or_eq_of_mem_set hx with h2 | rfl
      · exact hpos _ (List.mem_map_of_mem h2)
      · simp only; omega
    have hsh : (alloc hA v.shape junk2).2.shape = v.shape := denseDims_shape _
    have hnum : 1 ≤ (alloc hA v.shape junk2).2.numel := by
      rw [Arr.numel, hsh]; exact foldl_mul_pos _ _ (by omega) hvpos
    obtain ⟨c, hc⟩ : ∃ c : Nat, (alloc hA v.shape junk2).2.numel.toNat = c + 1 :=
      ⟨(alloc hA v.shape junk2).2.numel.toNat - 1, by omega⟩
    have hlen : ¬ v.dims.length < (alloc hA v.shape junk2).2.dims.length := by
      have := congrArg List.length hsh
      simp only [Arr.shape, List.length_map] at this
      simp only [Arr.shape] at *
      omega
    have hvblk : v.blk = a.blk := by subst hv; rfl
    have hload : (alloc hA v.shape junk2).1.load v.blk v.base = .ub := by
      have : (alloc hA v.shape junk2).1.mem v.blk v.base = none := by
        rw [hvb, hvblk]
        have hne : a.blk ≠ hA.next := by omega
        simp only [alloc, hne, if_false]
        exact hnone
      simp only [Heap.load, Buf.load, this]
    have : scalarOp (fun x => x.add (.flag rolloffFlag)) hA v junk2 = .ub := by
      simp only [scalarOp, scalarLoop, hlen, if_false, hc]
      rw [forLoop_ub]
      · rfl
      · simp only [body2, hload]; rfl
    rw [this]; rfl
  simp only [MaskSrc.get, rolloff, hn, hk, a1, Outcome.bind_ok, hub]
  rfl

/-- **C60 (width)**. The number of channels is `nchans * width` rounded to the nearest integer, up
to the rounding of the `float` product: within `1/2 + |nchans * width| * 2^-23`. -/
theorem C60_width (R : Float.Rounding 24) (w : ℚ) (n : Int) (hn : |n| ≤ 2 ^ 24) :
    |(oneSided R w n : ℚ) - n * w| ≤ 1 / 2 + |n * w| * 2 ^ (-23 : ℤ) := by
  unfold oneSided
  rw [R.int n hn]
  have h1 := Float.roundAway_err (R.r (n * w))
  have h2 := R.err (n * w)
  have : (1 - ((24 : Nat) : ℤ)) = -23 := by norm_num
  rw [this] at h2
  have h3 := abs_sub_le ((Float.roundAway (R.r (n * w)) : ℤ) : ℚ) (R.r (n * w)) (n * w)
  exact le_trans h3 (add_le_add h1 h2)

/-- When the product is a `float` the count is exactly the rounded product. -/
theorem C60_width_exact (R : Float.Rounding 24) (w : ℚ) (n : Int) (hn : |n| ≤ 2 ^ 24)
    (hx : R.r (n * w) = n * w) : oneSided R w n = Float.roundAway (n * w) := by
  unfold oneSided
  rw [R.int n hn, hx]

/-- Concrete case: a 2×8 mask with one flag, width 1/4. -/
def mask28 : Arr := dense 0 [2, 8]

def heap28 : Heap (Val Int) :=
  ⟨fun b => if b = 0 then Buf.ofFn 16 (fun i => .flag (if i = 3 then 16 else 0)) else fun _ => none, 1⟩

def read28 (w : ℚ) (r : Nat) (j : List Int) : Option (Val Int) :=
  match flagRolloff (oneSided (Float.nearestEven 24 (by decide)) w) (fun _ => .num 0) (fun _ => .num 0)
    (.arr mask28) heap28 with
  | .ok (h, s) => resultAt (readMask s r h) j
  | _ => none

-- the hypotheses of `C60_first_read_partial` hold of it
example : mask28.shape[1]? = some 8 ∧ mask28.WF ∧ mask28.Distinct ∧ mask28.blk < heap28.next ∧
    heap28.Contains mask28 (fun j => .flag (if j = [0, 3] then 16 else 0)) := by
  refine ⟨rfl, ?_, dense_distinct 0 [2, 8], by decide, ?_⟩
  · intro d hd
    have : d = ⟨2, 8, 0⟩ ∨ d = ⟨8, 1, 0⟩ := by simpa [mask28, dense, denseDims] using hd
    rcases this with rfl | rfl <;> decide
  · intro idx hi
    have hi' : ValidIdx [2, 8] idx := hi
    match idx, hi' with
    | [a, b], hi' =>
      simp only [ValidIdx, List.forall₂_cons, List.Forall₂.nil, and_true] at hi'
      obtain ⟨⟨a0, a1⟩, b0, b1⟩ := hi'
      interval_cases a <;> interval_cases b <;> decide +kernel

example : read28 (1/4) 0 [1, 1] = some (.flag 1) ∧ read28 (1/4) 0 [1, 2] = some (.flag 0) ∧
    read28 (1/4) 0 [0, 3] = some (.flag 16) ∧ read28 (1/4) 0 [0, 5] = some (.flag 1) ∧
    read28 (1/4) 1 [0, 5] = some (.flag 2) ∧ read28 0 0 [0, 3] = some (.flag 17) ∧
    read28 1 0 [0, 0] = none := by decide +kernel

end Bliss.Flag
