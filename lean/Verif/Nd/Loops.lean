import Verif.Nd.Odometer
import Verif.Nd.Spec

/-! # The element-wise loops write each element once -/

namespace Bliss.Nd

variable {V : Type}

/-- After `n` element writes: the written cells hold their values, nothing else changed. -/
structure Wrote (h h' : Heap V) (blk : Nat) (n : Nat) (ad : Nat → Int) (val : Nat → V) : Prop where
  next : h'.next = h.next
  done : ∀ k < n, h'.mem blk (ad k) = some (val k)
  same : ∀ b i, (b = blk → ∀ k < n, ad k ≠ i) → h'.mem b i = h.mem b i

theorem Wrote.refl (h : Heap V) (blk : Nat) (ad : Nat → Int) (val : Nat → V) :
    Wrote h h blk 0 ad val := ⟨rfl, fun _ hk => absurd hk (by omega), fun _ _ _ => rfl⟩

theorem Wrote.mapped {h h' : Heap V} {blk n : Nat} {ad : Nat → Int} {val : Nat → V}
    (w : Wrote h h' blk n ad val) {b : Nat} {i : Int} (hm : h.mem b i ≠ none) :
    h'.mem b i ≠ none := by
  by_cases hb : b = blk ∧ ∃ k < n, ad k = i
  · obtain ⟨rfl, k, hk, rfl⟩ := hb
    rw [w.done k hk]; simp
  · rw [w.same b i (fun e k hk he => hb ⟨e, k, hk, he⟩)]; exact hm

theorem Wrote.store {h h' : Heap V} {blk n : Nat} {ad : Nat → Int} {val : Nat → V}
    (w : Wrote h h' blk n ad val) (hm : h.mem blk (ad n) ≠ none)
    (hinj : ∀ k < n, ad k ≠ ad n) :
    ∃ h'', h'.store blk (ad n) (val n) = .ok h'' ∧ Wrote h h'' blk (n + 1) ad val := by
  have hm' := w.mapped hm
  obtain ⟨v, hv⟩ := Option.ne_none_iff_exists'.mp hm'
  have hst : h'.store blk (ad n) (val n) = .ok { h' with mem := fun k =>
      if k = blk then (fun j => if j = ad n then some (val n) else h'.mem blk j) else h'.mem k } := by
    simp only [Heap.store, Buf.store_some hv, Outcome.bind_ok, Outcome.pure_eq]
  refine ⟨_, hst, w.next, ?_, ?_⟩
  · intro k hk
    by_cases e : k = n
    · subst e; simp
    · have h1 := hinj k (by omega)
      simp [h1, w.done k (by omega)]
  · intro b i hb
    by_cases e : b = blk
    · subst e
      have h1 : ad n ≠ i := hb rfl n (by omega)
      simp only [if_true]
      rw [if_neg (fun e => h1 e.symm)]
      exact w.same b i (fun _ k hk => hb rfl k (by omega))
    · simp only [e, if_false]
      exact w.same b i (fun e' => absurd e' e)

theorem Wrote.load {h h' : Heap V} {blk n : Nat} {ad : Nat → Int} {val : Nat → V}
    (w : Wrote h h' blk n ad val) {b : Nat} {i : Int} {v : V} (hv : h.mem b i = some v)
    (hno : b = blk → ∀ k < n, ad k ≠ i) : h'.load b i = .ok v :=
  Buf.load_some (by rw [w.same b i hno]; exact hv)

/-- The scalar/unary loop. -/
theorem loop2 (op : V → V) {h : Heap V} {aBlk oBlk : Nat} {ld : List (LoopDim (Int × Int))}
    (hr : ResetA ld) (base : Int × Int) {A : Nat → V}
    (hA : ∀ k < cells ld, h.mem aBlk (base + dot ld (unravel ld k)).1 = some (A k))
    (hO : ∀ k < cells ld, h.mem oBlk (base + dot ld (unravel ld k)).2 ≠ none)
    (hinj : ∀ j < cells ld, ∀ k < j,
      (base + dot ld (unravel ld k)).2 ≠ (base + dot ld (unravel ld j)).2)
    (hno : aBlk = oBlk → ∀ j < cells ld, ∀ k < j,
      (base + dot ld (unravel ld k)).2 ≠ (base + dot ld (unravel ld j)).1) :
    ∃ st, forLoop (cells ld) (fun _ st => body2 op aBlk oBlk ld st) (h, zeros ld, base) = .ok st ∧
      Wrote h st.1 oBlk (cells ld) (fun k => (base + dot ld (unravel ld k)).2)
        (fun k => op (A k)) := by
  obtain ⟨st, h1, h2, _⟩ := forLoop_inv (n := cells ld)
    (body := fun _ st => body2 op aBlk oBlk ld st) (s := (h, zeros ld, base))
    (fun n st => Wrote h st.1 oBlk n (fun k => (base + dot ld (unravel ld k)).2)
        (fun k => op (A k)) ∧
      (n < cells ld → st.2.1 = unravel ld n ∧ st.2.2 = base + dot ld (unravel ld n)))
    ⟨Wrote.refl _ _ _ _, fun _ => ⟨(unravel_zero ld).symm, by rw [unravel_zero, dot_zeros, add_zero]⟩⟩
    (by
      rintro n ⟨h1, idx, p⟩ hn ⟨w, hs⟩
      obtain ⟨rfl, rfl⟩ := hs hn
      have hl := w.load (hA n hn) (fun e k hk => hno e.symm.symm n hn k hk)
      obtain ⟨h2, hst, w2⟩ := w.store (hO n hn) (fun k hk => hinj n hn k hk)
      refine ⟨_, by simp only [body2, hl, Outcome.bind_ok, hst, Outcome.pure_eq]; rfl, w2, ?_⟩
      intro hn1
      simp only [odoA_step hr base hn, hn1, if_true]
      exact ⟨trivial, trivial⟩)
  exact ⟨st, h1, h2⟩

/-- The fill loop. -/
theorem loop1 (v : V) {h : Heap V} {oBlk : Nat} {ld : List (LoopDim Int)}
    (hr : ResetA ld) (base : Int)
    (hO : ∀ k < cells ld, h.mem oBlk (base + dot ld (unravel ld k)) ≠ none)
    (hinj : ∀ j < cells ld, ∀ k < j,
      (base + dot ld (unravel ld k)) ≠ (base + dot ld (unravel ld j))) :
    ∃ st, forLoop (cells ld) (fun _ st => fillBody v oBlk ld st) (h, zeros ld, base) = .ok st ∧
      Wrote h st.1 oBlk (cells ld) (fun k => base + dot ld (unravel ld k)) (fun _ => v) := by
  obtain ⟨st, h1, h2, _⟩ := forLoop_inv (n := cells ld)
    (body := fun _ st => fillBody v oBlk ld st) (s := (h, zeros ld, base))
    (fun n st => Wrote h st.1 oBlk n (fun k => base + dot ld (unravel ld k)) (fun _ => v) ∧
      (n < cells ld → st.2.1 = unravel ld n ∧ st.2.2 = base + dot ld (unravel ld n)))
    ⟨Wrote.refl _ _ _ _, fun _ => ⟨(unravel_zero ld).symm, by rw [unravel_zero, dot_zeros, add_zero]⟩⟩
    (by
      rintro n ⟨h1, idx, p⟩ hn ⟨w, hs⟩
      obtain ⟨rfl, rfl⟩ := hs hn
      obtain ⟨h2, hst, w2⟩ := w.store (hO n hn) (fun k hk => hinj n hn k hk)
      refine ⟨_, by simp only [fillBody, Outcome.bind_ok, hst, Outcome.pure_eq]; rfl, w2, ?_⟩
      intro hn1
      simp only [odoA_step hr base hn, hn1, if_true]
      exact ⟨trivial, trivial⟩)
  exact ⟨st, h1, h2⟩

/-- The chunked binary loop. -/
theorem loop3 (op : V → V → V) {h : Heap V} {aBlk bBlk oBlk : Nat}
    {ld : List (LoopDim (Int × Int × Int))} {l : LoopDim (Int × Int × Int)}
    (hl : ld.getLast? = some l) (hr : ResetB ld) (base : Int × Int × Int) {A B : Nat → V}
    (hA : ∀ k < cells ld, h.mem aBlk (base + dot ld (unravel ld k)).1 = some (A k))
    (hB : ∀ k < cells ld, h.mem bBlk (base + dot ld (unravel ld k)).2.1 = some (B k))
    (hO : ∀ k < cells ld, h.mem oBlk (base + dot ld (unravel ld k)).2.2 ≠ none)
    (hinj : ∀ j < cells ld, ∀ k < j,
      (base + dot ld (unravel ld k)).2.2 ≠ (base + dot ld (unravel ld j)).2.2)
    (hnoA : aBlk = oBlk → ∀ j < cells ld, ∀ k < j,
      (base + dot ld (unravel ld k)).2.2 ≠ (base + dot ld (unravel ld j)).1)
    (hnoB : bBlk = oBlk → ∀ j < cells ld, ∀ k < j,
      (base + dot ld (unravel ld k)).2.2 ≠ (base + dot ld (unravel ld j)).2.1) :
    ∃ h', binLoop op aBlk bBlk oBlk ld l.size l.stride (cells ld) (cells ld) 0
        (h, zeros ld, base) = .ok h' ∧
      Wrote h h' oBlk (cells ld) (fun k => (base + dot ld (unravel ld k)).2.2)
        (fun k => op (A k) (B k)) := by
  have hpos : ∀ d ∈ ld, 0 < d.size := fun d hd => (hr d hd).1
  suffices H : ∀ (fuel n : Nat) (h1 : Heap V), cells ld ≤ n + fuel → n ≤ cells ld →
      Wrote h h1 oBlk n (fun k => (base + dot ld (unravel ld k)).2.2) (fun k => op (A k) (B k)) →
      ∀ idx p, (n < cells ld → idx = unravel ld n ∧ p = base + dot ld (unravel ld n)) →
      ∃ h', binLoop op aBlk bBlk oBlk ld l.size l.stride (cells ld) fuel n (h1, idx, p) = .ok h' ∧
      Wrote h h' oBlk (cells ld) (fun k => (base + dot ld (unravel ld k)).2.2)
        (fun k => op (A k) (B k)) by
    exact H (cells ld) 0 h (by omega) (by omega) (Wrote.refl _ _ _ _) _ _
      (fun _ => ⟨(unravel_zero ld).symm, by rw [unravel_zero, dot_zeros, add_zero]⟩)
  intro fuel
  induction fuel with
  | zero =>
    intro n h1 hf hn w idx p _
    have : n = cells ld := by omega
    subst this
    exact ⟨h1, by simp [binLoop], w⟩
  | succ fuel ih =>
    intro n h1 hf hn w idx p hs
    by_cases hlt : n < cells ld
    · obtain ⟨rfl, rfl⟩ := hs hlt
      have hlt' : (n : Int) < cells ld := by omega
      -- the last index is in range
      have hlast : 0 ≤ (unravel ld n).getLastD 0 ∧ (unravel ld n).getLastD 0 < l.size := by
        have key : ∀ (ld : List (LoopDim (Int × Int × Int))) (is : List Int), InBox ld is →
            ld.getLast? = some l → 0 ≤ is.getLastD 0 ∧ is.getLastD 0 < l.size := by
          intro ld
          induction ld with
          | nil => intro is _ h; simp at h
          | cons d ds ih =>
            intro is hb hl
            cases is with
            | nil => exact absurd hb (by simp [InBox])
            | cons i is =>
              obtain ⟨b1, b2, b3⟩ := hb
              cases ds with
              | nil =>
                have : is = [] := b3
                subst this
                simp at hl; subst hl
                simpa using ⟨b1, b2⟩
              | cons e ds =>
                have := ih is b3 (by simpa [List.getLast?_cons_cons] using hl)
                cases is with
                | nil => exact absurd b3 (by simp [InBox])
                | cons j is => simpa using this
        exact key ld _ (unravel_inBox hlt) hl
      let left : Int := (l.size - 1) - (unravel ld n).getLastD 0
      let c : Nat := (if left ≥ 8 then (8 : Int) else 1 + left).toNat
      have hleft : 0 ≤ left := by simp only [left]; omega
      have hcI : (c : Int) = if left ≥ 8 then (8 : Int) else 1 + left := by
        simp only [c]; split <;> omega
      have hc1 : 1 ≤ c := by
        have : (1 : Int) ≤ c := by rw [hcI]; split <;> omega
        omega
      have hcl : (unravel ld n).getLastD 0 + c ≤ l.size := by
        rw [hcI]; simp only [left]; split <;> omega
      obtain ⟨hle, hodo⟩ := odoB_step hr hl base hlt hc1 hcl
      -- the chunk
      have hchunk : ∃ h2, binChunk op aBlk bBlk oBlk l.stride c (base + dot ld (unravel ld n)) h1
            = .ok h2 ∧
          Wrote h h2 oBlk (n + c) (fun k => (base + dot ld (unravel ld k)).2.2)
            (fun k => op (A k) (B k)) := by
        unfold binChunk
        refine forLoop_inv (fun j h2 => Wrote h h2 oBlk (n + j)
          (fun k => (base + dot ld (unravel ld k)).2.2) (fun k => op (A k) (B k))) w ?_
        intro j h2 hj w2
        obtain ⟨a1, _, a3⟩ := unravel_add_last hl hpos hlt (j := j) (by omega) base
        have p1 : (base + dot ld (unravel ld n)).1 + j * l.stride.1 =
            (base + dot ld (unravel ld (n + j))).1 := by rw [a3]; simp
        have p2 : (base + dot ld (unravel ld n)).2.1 + j * l.stride.2.1 =
            (base + dot ld (unravel ld (n + j))).2.1 := by rw [a3]; simp
        have p3 : (base + dot ld (unravel ld n)).2.2 + j * l.stride.2.2 =
            (base + dot ld (unravel ld (n + j))).2.2 := by rw [a3]; simp
        have l1 := w2.load (hA (n + j) a1) (fun e k hk => hnoA e (n + j) a1 k hk)
        have l2 := w2.load (hB (n + j) a1) (fun e k hk => hnoB e (n + j) a1 k hk)
        obtain ⟨h3, hst, w3⟩ := w2.store (hO (n + j) a1) (fun k hk => hinj (n + j) a1 k hk)
        refine ⟨h3, ?_, w3⟩
        simp only [p1, p2, p3, l1, l2, Outcome.bind_ok]
        exact hst
      obtain ⟨h2, hch, w2⟩ := hchunk
      obtain ⟨h', hok, w'⟩ := ih (n + c) h2 (by omega) hle w2
        (odoB (c : Int) ld (unravel ld n) (base + dot ld (unravel ld n))).1
        (odoB (c : Int) ld (unravel ld n) (base + dot ld (unravel ld n))).2.1
        (by intro hlt2; rw [hodo]; simp [hlt2])
      refine ⟨h', ?_, w'⟩
      unfold binLoop
      have hcI' : (if l.size - 1 - (unravel ld n).getLastD 0 ≥ 8 then (8 : Int)
          else 1 + (l.size - 1 - (unravel ld n).getLastD 0)) = (c : Int) := hcI.symm
      simp only [hlt', if_true, hcI', Int.toNat_natCast, hch, Outcome.bind_ok]
      rw [← hok]
      push_cast
      rfl
    · have : n = cells ld := by omega
      subst this
      refine ⟨h1, by simp [binLoop], w⟩

end Bliss.Nd
