import Verif.Gpu.Prog
import Verif.Misc.Fft

/-!
# Spectra on a CUDA device (C93, C94)

Models bland/bland/ops/cuda/frequency_cuda.cu. The transform itself is cuFFT and is not modelled:
`X n` stands for its `n`-th output. The kernel that shifts and squares is launched with 512 threads
that all compute the same index 0 and therefore all write everything: every cell is written by every
thread, always with the same value. The rule for launches without races does not apply; the rule
proved here is that concurrent writers of equal values leave that value.
-/

namespace Bliss.Gpu

open Bliss.Fft Bliss.Float

/-! ## Launches whose threads write equal values -/

section Same
variable {A V α : Type} [DecidableEq A]

/-- Run from a memory that holds `s0` wherever `g` is undefined, the program reads only there, does
not fault, and stores at the addresses `w`, in this order, the values that `g` prescribes. -/
inductive Emits (s0 g : Mem A V) : List A → Prog A V α → Prop
  | ret (x : α) : Emits s0 g [] (.ret x)
  | load {a : A} {v : V} {k : V → Prog A V α} {w : List A} (h : s0 a = some v) (hg : g a = none)
      (hk : Emits s0 g w (k v)) : Emits s0 g w (.load a k)
  | store {a : A} {v : V} {k : Prog A V α} {w : List A} (h : g a = some v)
      (hk : Emits s0 g w k) : Emits s0 g (a :: w) (.store a v k)

theorem Emits.bind {β : Type} {s0 g : Mem A V} {w w' : List A} {p : Prog A V α}
    {f : α → Prog A V β} (h : Emits s0 g w p) (hf : ∀ x, Emits s0 g w' (f x)) :
    Emits s0 g (w ++ w') (p.bind f) := by
  induction h with
  | ret x => exact hf x
  | load h hg _ ih => exact .load h hg ih
  | store h _ ih => exact .store h ih

theorem Emits.each {τ : Type} {s0 g : Mem A V} {w : τ → List A} {body : τ → Prog A V Unit}
    {xs : List τ} (h : ∀ x ∈ xs, Emits s0 g (w x) (body x)) :
    Emits s0 g (xs.flatMap w) (Prog.each xs body) := by
  induction xs with
  | nil => exact .ret ()
  | cons x xs ih =>
    rw [List.flatMap_cons]
    exact (h x (by simp)).bind fun _ => ih fun y hy => h y (by simp [hy])

/-- Threads that write equal values: no schedule faults, and at the end every cell that some thread
writes holds the prescribed value and every other cell what it held before. -/
theorem same_writes {ι : Type} [DecidableEq ι] {ps : ι → Prog A V α} {s0 g : Mem A V}
    {W : ι → List A} (hp : ∀ i, Emits s0 g (W i) (ps i))
    (hm : ∀ a, g a ≠ none → s0 a ≠ none) :
    ¬ Exec ProgStep ps s0 .ub ∧
    ∀ s', Completes ProgStep ps s0 s' →
      (∀ i, ∀ a ∈ W i, s' a = g a) ∧ ∀ a, (∀ i, a ∉ W i) → s' a = s0 a := by
  have key : ∀ o, Exec ProgStep ps s0 o → ∃ ls' s', o = .ok (ls', s') ∧
      (∀ a, s' a = s0 a ∨ (g a ≠ none ∧ (∃ i, a ∈ W i) ∧ s' a = g a)) ∧
      ∀ i, ∃ w, Emits s0 g w (ls' i) ∧ (∀ a ∈ w, a ∈ W i) ∧ ∀ a ∈ W i, a ∈ w ∨ s' a = g a := by
    intro o hE
    refine hE.rely (I := fun s => ∀ a, s a = s0 a ∨ (g a ≠ none ∧ (∃ i, a ∈ W i) ∧ s a = g a))
      (T := fun i p s => ∃ w, Emits s0 g w p ∧ (∀ a ∈ w, a ∈ W i) ∧ ∀ a ∈ W i, a ∈ w ∨ s a = g a)
      (G := fun _ s s' => ∀ a, s a = g a → s' a = g a) ?_ ?_ ?_ (fun a => .inl rfl)
      (fun i => ⟨W i, hp i, fun _ h => h, fun _ h => .inl h⟩)
    · rintro i p s p' s' hI ⟨w, hw, hsub, hdone⟩ hk
      cases hw with
      | ret x => cases hk
      | @load a v k w h hg hk' =>
        cases hk with
        | @load _ _ _ v' h' =>
          have : s a = s0 a := by
            rcases hI a with e | ⟨e, _⟩
            · exact e
            · exact absurd hg e
          obtain rfl : v' = v := by rw [this, h] at h'; exact (Option.some.inj h').symm
          exact ⟨hI, ⟨w, hk', hsub, hdone⟩, fun _ h => h⟩
      | @store a v k w h hk' =>
        cases hk with
        | @store _ _ u _ _ h' =>
          refine ⟨fun b => ?_, ⟨w, hk', fun b hb => hsub b (by simp [hb]), fun b hb => ?_⟩,
            fun b hb => ?_⟩
          · by_cases e : b = a
            · subst e
              exact .inr ⟨by rw [h]; simp, ⟨i, hsub b (by simp)⟩, by simp [h]⟩
            · rw [Function.update_of_ne e]; exact hI b
          · by_cases e : b = a
            · subst e; exact .inr (by simp [h])
            · rw [Function.update_of_ne e]
              rcases hdone b hb with h1 | h1
              · rcases List.mem_cons.1 h1 with h2 | h2
                · exact absurd h2 e
                · exact .inl h2
              · exact .inr h1
          · by_cases e : b = a
            · subst e; simp [h]
            · rw [Function.update_of_ne e]; exact hb
    · rintro i p s hI ⟨w, hw, _, _⟩ hk
      cases hw with
      | ret x => cases hk
      | @load a v k w h hg hk' =>
        cases hk with
        | loadBad h' =>
          rcases hI a with e | ⟨e, _⟩
          · rw [e, h] at h'; cases h'
          · exact absurd hg e
      | @store a v k w h hk' =>
        cases hk with
        | storeBad h' =>
          rcases hI a with e | ⟨e1, _, e2⟩
          · exact hm a (by rw [h]; simp) (e ▸ h')
          · exact e1 (e2 ▸ h')
    · rintro i j p s s' _ _ _ hG ⟨w, hw, hsub, hdone⟩
      refine ⟨w, hw, hsub, fun a ha => ?_⟩
      rcases hdone a ha with h | h
      · exact .inl h
      · exact .inr (hG a h)
  constructor
  · intro hE
    obtain ⟨_, _, h, _⟩ := key _ hE
    cases h
  · rintro s' ⟨ls', hE, hret⟩
    obtain ⟨ls'', s'', e, hI, hT⟩ := key _ hE
    obtain ⟨rfl, rfl⟩ := Prod.mk.inj (Outcome.ok.inj e)
    refine ⟨fun i a ha => ?_, fun a hn => ?_⟩
    · obtain ⟨w, hw, _, hdone⟩ := hT i
      have hr := hret i
      generalize ls' i = p at hw hr
      cases hw with
      | ret x => rcases hdone a ha with h | h
                 · cases h
                 · exact h
      | load _ _ _ => exact absurd (ProgStep.loadBad rfl) (hr (fun _ => none) .ub)
      | store _ _ => exact absurd (ProgStep.storeBad rfl) (hr (fun _ => none) .ub)
    · rcases hI a with h | ⟨_, ⟨i, hi⟩, _⟩
      · exact h
      · exact absurd hi (hn i)

end Same

/-! ## The kernel -/

/-- The two arrays of the kernel: the outputs of the transform and the result. -/
inductive FAddr where
  | spec (n : Int)
  | out (n : Int)
  deriving DecidableEq

/-- A cell of either. -/
inductive FCell (C F : Type) where
  | cplx (c : C)
  | real (x : F)

variable {C F : Type}

/-- Body of the loop (frequency_cuda.cu lines 27-39): `mag` is `x*x + y*y` of one output of the
transform. -/
def shiftBody (mag : C → F) (dc : Int) (n : Nat) : Prog FAddr (FCell C F) Unit :=
  .load (.spec n) fun c =>
    match c with
    | .real _ => .fault
    | .cplx c => .store (.out (dc + n)) (.real (mag c))
        (if n = 0 then .ret () else .store (.out (dc - n)) (.real (mag c)) (.ret ()))

/-- `rc2c_shift_abs_square` (frequency_cuda.cu lines 19-41). `threadIdx.x * blockIdx.x * blockDim.x`
is 0 in the only block, so each thread runs the whole loop `for (n = 0; n < N/2; ++n)`. -/
def shiftThread (mag : C → F) (N : Nat) : Prog FAddr (FCell C F) Unit :=
  Prog.each (List.range (N / 2)) (shiftBody mag (dcIndex N))

/-- The launch `<<<1, 512>>>` (frequency_cuda.cu line 67). -/
def shiftThreads (mag : C → F) (N : Nat) : Fin 512 → Prog FAddr (FCell C F) Unit :=
  fun _ => shiftThread mag N

/-- Device memory at the launch (frequency_cuda.cu lines 57-64, frequency.cpp line 32): the
`N/2 + 1` outputs of the transform and `N` floats of indeterminate content. -/
def shiftMem (X : Nat → C) (N : Nat) (junk : Int → F) : Mem FAddr (FCell C F)
  | .spec n => if 0 ≤ n ∧ n < (halfN N : Int) then some (.cplx (X n.toNat)) else none
  | .out n => if 0 ≤ n ∧ n < (N : Int) then some (.real (junk n)) else none

/-- What the kernel prescribes for a cell. -/
def shiftGoal (mag : C → F) (X : Nat → C) (N : Nat) : Mem FAddr (FCell C F)
  | .spec _ => none
  | .out k => if (k - dcIndex N).natAbs < N / 2 then some (.real (mag (X (k - dcIndex N).natAbs)))
      else none

/-- Addresses written by one iteration. -/
def shiftWrites (dc : Int) (n : Nat) : List FAddr :=
  if n = 0 then [.out (dc + n)] else [.out (dc + n), .out (dc - n)]

theorem shiftThread_emits (mag : C → F) (X : Nat → C) (N : Nat) (junk : Int → F) :
    Emits (shiftMem X N junk) (shiftGoal mag X N)
      ((List.range (N / 2)).flatMap (shiftWrites (dcIndex N))) (shiftThread mag N) := by
  refine Emits.each fun n hn => ?_
  have hn' := List.mem_range.1 hn
  have g1 : shiftGoal mag X N (.out (dcIndex N + n)) = some (.real (mag (X n))) := by
    simp only [shiftGoal]
    rw [show dcIndex N + n - dcIndex N = (n : Int) by omega, Int.natAbs_natCast, if_pos hn']
  have g2 : shiftGoal mag X N (.out (dcIndex N - n)) = some (.real (mag (X n))) := by
    simp only [shiftGoal]
    rw [show dcIndex N - n - dcIndex N = -(n : Int) by omega, Int.natAbs_neg, Int.natAbs_natCast,
      if_pos hn']
  refine .load (v := .cplx (X n)) ?_ rfl ?_
  · simp only [shiftMem]
    rw [if_pos (by unfold halfN; omega), Int.toNat_natCast]
  · simp only [shiftWrites]
    split
    · exact .store g1 (.ret ())
    · exact .store g1 (.store g2 (.ret ()))

theorem shiftThread_bounded (mag : C → F) (N : Nat) :
    ∃ k, Prog.Bounded k (shiftThread mag N) := by
  refine ⟨_, Prog.Bounded.each (m := 3) fun n _ => ?_⟩
  refine .load fun c => ?_
  cases c with
  | real x => exact .fault _
  | cplx c =>
    refine .store ?_
    split
    · exact .ret _ _
    · exact .store (.ret _ _)

theorem mem_shiftWrites (N : Nat) (k : Int) :
    FAddr.out k ∈ (List.range (N / 2)).flatMap (shiftWrites (dcIndex N)) ↔
      (k - dcIndex N).natAbs < N / 2 := by
  rw [List.mem_flatMap]
  constructor
  · rintro ⟨n, hn, hk⟩
    have hn' := List.mem_range.1 hn
    unfold shiftWrites at hk
    split at hk <;> simp at hk <;> omega
  · intro h
    refine ⟨_, List.mem_range.2 h, ?_⟩
    unfold shiftWrites
    split
    · simp only [List.mem_singleton, FAddr.out.injEq]; omega
    · simp only [List.mem_cons, FAddr.out.injEq, List.not_mem_nil, or_false]; omega

/-- The kernel at a length whose middle is computed exactly. -/
theorem shift_launch (mag : C → F) (X : Nat → C) (N : Nat) (junk : Int → F)
    (hdc : dcIndex N = (N / 2 : Nat)) :
    ¬ Exec ProgStep (shiftThreads mag N) (shiftMem X N junk) .ub ∧
    Terminates ProgStep (shiftThreads mag N) (shiftMem X N junk) ∧
    (∃ s, Completes ProgStep (shiftThreads mag N) (shiftMem X N junk) s) ∧
    ∀ s, Completes ProgStep (shiftThreads mag N) (shiftMem X N junk) s → ∀ k : Int,
      s (.out k) = if (k - (N / 2 : Nat)).natAbs < N / 2
        then some (.real (mag (X (k - (N / 2 : Nat)).natAbs))) else shiftMem X N junk (.out k) := by
  obtain ⟨h1, h2⟩ := same_writes (fun _ : Fin 512 => shiftThread_emits mag X N junk) (by
    rintro (n | k) h
    · exact absurd rfl h
    · simp only [shiftGoal, hdc] at h
      simp only [shiftMem]
      split at h
      · rw [if_pos (by omega)]; simp
      · exact absurd rfl h)
  have hb : ∀ i : Fin 512, ∃ k, Prog.Bounded k (shiftThreads mag N i) :=
    fun _ => shiftThread_bounded mag N
  refine ⟨h1, prog_terminates hb _, prog_completes hb _ h1, fun s hs k => ?_⟩
  obtain ⟨h3, h4⟩ := h2 s hs
  split
  · next h =>
    rw [h3 0 (.out k) ((mem_shiftWrites N k).2 (by rw [hdc]; exact h))]
    simp only [shiftGoal, hdc]
    rw [if_pos h]
  · next h =>
    exact h4 _ fun _ hm => h (by rw [← hdc]; exact (mem_shiftWrites N k).1 hm)

/-! ## Lengths whose middle is exact -/

theorem dcIndex_small {N : Nat} (h0 : 0 < N) (h : N ≤ 2 ^ 24) : dcIndex N = (N / 2 : Nat) := by
  unfold dcIndex
  have h1 : (N : ℚ) - 1 = ((N - 1 : Nat) : ℤ) * 2 ^ (0 : ℤ) := by
    rw [zpow_zero, mul_one, Nat.cast_sub (by omega)]; push_cast; ring
  rw [h1, rne_exact (by norm_num) _ _ (by
    rw [abs_of_nonneg (by omega)]; exact_mod_cast (by omega : N - 1 ≤ 2 ^ 24))]
  rw [zpow_zero, mul_one]
  rw [Int.ceil_eq_iff]
  rw [Int.cast_natCast, Int.cast_natCast]
  have h2 : N - 1 = 2 * (N / 2) ∨ N - 1 + 1 = 2 * (N / 2) := by omega
  rcases h2 with h2 | h2
  · have : (((N - 1 : Nat) : ℕ) : ℚ) = 2 * ((N / 2 : Nat) : ℚ) := by exact_mod_cast h2
    constructor <;> linarith
  · have : (((N - 1 : Nat) : ℕ) : ℚ) + 1 = 2 * ((N / 2 : Nat) : ℚ) := by exact_mod_cast h2
    constructor <;> linarith

/-! ## C93 -/

/-- **C93**, every length whose middle a 32-bit float gives exactly (all up to `2^24`,
`dcIndex_small`): under every schedule of the 512 threads nothing outside the arrays is touched and
the launch returns; it can return; however it returns, every bin except the first (and the last, at
odd lengths) holds the squared magnitude of the bin that the shift moves there. Missing: those edge
bins, which are never written (`C93_edges_never_written`), and longer lengths, where the property
fails for some (`C93_long_overflows`). -/
theorem C93_gpu_shift_partial (mag : C → F) (X : Nat → C) (N : Nat) (junk : Int → F)
    (hdc : dcIndex N = (N / 2 : Nat)) (P : Nat → F) (hP : Spectrum (fun n => mag (X n)) P N) :
    ¬ Exec ProgStep (shiftThreads mag N) (shiftMem X N junk) .ub ∧
    Terminates ProgStep (shiftThreads mag N) (shiftMem X N junk) ∧
    (∃ s, Completes ProgStep (shiftThreads mag N) (shiftMem X N junk) s) ∧
    ∀ s, Completes ProgStep (shiftThreads mag N) (shiftMem X N junk) s →
      ∀ k : Nat, 0 < k → k < N - N % 2 → s (.out k) = some (.real (P (shiftedBin N k))) := by
  obtain ⟨h1, h2, h3, h4⟩ := shift_launch mag X N junk hdc
  refine ⟨h1, h2, h3, fun s hs k hk0 hkN => ?_⟩
  rw [h4 s hs k, if_pos (by omega)]
  by_cases h : N / 2 ≤ k
  · have hb : shiftedBin N k = k - N / 2 := by
      unfold shiftedBin
      rw [show k + N - N / 2 = (k - N / 2) + N by omega, Nat.add_mod_right,
        Nat.mod_eq_of_lt (by omega)]
    have he : ((k : Int) - (N / 2 : Nat)).natAbs = k - N / 2 := by omega
    rw [hb, he, hP.first _ (by unfold halfN; omega) (by omega)]
  · have hb : shiftedBin N k = N - (N / 2 - k) := by
      unfold shiftedBin
      rw [Nat.mod_eq_of_lt (by omega)]; omega
    have he : ((k : Int) - (N / 2 : Nat)).natAbs = N / 2 - k := by omega
    rw [hb, he, hP.symm _ (by omega) (by omega), hP.first _ (by unfold halfN; omega) (by omega)]

/-- **Violation of C93.** Whatever the schedule, the first bin, which belongs to the highest
frequency, keeps the content that the allocation had; at odd lengths so does the last. -/
theorem C93_edges_never_written (mag : C → F) (X : Nat → C) (N : Nat) (junk : Int → F)
    (hdc : dcIndex N = (N / 2 : Nat)) (hN : 0 < N) (s : Mem FAddr (FCell C F))
    (hs : Completes ProgStep (shiftThreads mag N) (shiftMem X N junk) s) :
    s (.out 0) = some (.real (junk 0)) ∧
    (N % 2 = 1 → s (.out ((N : Int) - 1)) = some (.real (junk ((N : Int) - 1)))) := by
  obtain ⟨_, _, _, h4⟩ := shift_launch mag X N junk hdc
  constructor
  · rw [h4 s hs, if_neg (by omega)]
    simp only [shiftMem]
    rw [if_pos (by omega)]
  · intro ho
    rw [h4 s hs, if_neg (by omega)]
    simp only [shiftMem]
    rw [if_pos (by omega)]

/-- An execution of one thread alone is an execution of the launch. -/
theorem Alone.exec_ub {ι L σ : Type} [DecidableEq ι] {K : Kernel L σ} (i : ι) {l : L} {s : σ}
    (h : Alone K l s .ub) (ls : ι → L) (hl : ls i = l) : Exec K ls s .ub := by
  generalize hr : (Outcome.ub : Outcome (L × σ)) = r at h
  induction h generalizing ls with
  | stop l s => cases hr
  | @step l l' s s' o hk _ ih =>
    exact .step i (hl ▸ hk) (ih (Function.update ls i l') (by simp) hr)
  | fault hk => exact .fault i (hl ▸ hk)

theorem shift_run_ub (mag : C → F) (dc : Int) (xs : List Nat) (m : Nat) (hm : m ∈ xs)
    (s : Mem FAddr (FCell C F)) (hspec : ∀ n ∈ xs, ∃ c, s (.spec (n : Nat)) = some (.cplx c))
    (hout : s (.out (dc + m)) = none) :
    (Prog.each xs (shiftBody mag dc)).run s = .ub := by
  induction xs generalizing s with
  | nil => simp at hm
  | cons n xs ih =>
    have step : ∀ (t : Mem FAddr (FCell C F)) (a : Int) (v : FCell C F),
        t (.out (dc + m)) = none → t (.out a) ≠ none →
        Function.update t (.out a) (some v) (.out (dc + m)) = none := by
      intro t a v h1 h2
      rw [Function.update_of_ne]
      · exact h1
      · rintro e; injection e with e; exact h2 (e ▸ h1)
    obtain ⟨c, hc⟩ := hspec n (by simp)
    simp only [Prog.each, Prog.run_bind]
    simp only [shiftBody, Prog.run, hc]
    cases h1 : s (.out (dc + n)) with
    | none => rfl
    | some u =>
      have hmx : m ∈ xs := by
        rcases List.mem_cons.1 hm with rfl | h
        · rw [hout] at h1; cases h1
        · exact h
      have o1 := step s (dc + n) (.real (mag c)) hout (by rw [h1]; simp)
      simp only []
      split
      · simp only [Prog.run]
        refine ih hmx _ (fun k hk => ?_) o1
        obtain ⟨c', hc'⟩ := hspec k (by simp [hk])
        refine ⟨c', ?_⟩
        rw [← hc']
        dsimp only
        rw [Function.update_of_ne (by simp)]
      · simp only [Prog.run]
        cases h2 : Function.update s (.out (dc + n)) (some (.real (mag c))) (.out (dc - n)) with
        | none => rfl
        | some u' =>
          refine ih hmx _ (fun k hk => ?_) (step _ _ _ o1 (by rw [h2]; simp))
          obtain ⟨c', hc'⟩ := hspec k (by simp [hk])
          refine ⟨c', ?_⟩
          rw [← hc']
          dsimp only
          rw [Function.update_of_ne (by simp), Function.update_of_ne (by simp)]

/-- **Violation of C93.** At length `2^26 + 6` the middle, computed in a 32-bit float, is one too
high and a thread stores behind the end of the array. -/
theorem C93_long_overflows (mag : C → F) (X : Nat → C) (junk : Int → F) :
    Exec ProgStep (shiftThreads mag (2 ^ 26 + 6)) (shiftMem X (2 ^ 26 + 6) junk) .ub := by
  have hd : dcIndex (2 ^ 26 + 6) = 2 ^ 25 + 4 := by
    unfold dcIndex; decide +kernel
  refine Alone.exec_ub (0 : Fin 512) (l := shiftThread mag (2 ^ 26 + 6)) ?_ _ rfl
  refine (run_alone _ _).2 ?_
  refine shift_run_ub mag _ _ (2 ^ 25 + 2) (List.mem_range.2 (by norm_num)) _ (fun n hn => ?_) ?_
  · have := List.mem_range.1 hn
    refine ⟨X n, ?_⟩
    simp only [shiftMem]
    rw [if_pos (by unfold halfN; omega), Int.toNat_natCast]
  · rw [hd]
    simp only [shiftMem]
    rw [if_neg (by norm_num)]

/-- Concrete case for `C93_gpu_shift_partial` and `C93_edges_never_written`: a spectrum of six
points, and a length of practical size beyond the general bound. -/
example : dcIndex 6 = (6 / 2 : Nat) ∧ dcIndex (2 ^ 28) = ((2 ^ 28) / 2 : Nat) ∧
    Spectrum (fun n => [7, 8, 9, 5].getD n 0) (fun i => [7, 8, 9, 5, 9, 8].getD i 0) 6 ∧
    (List.range 6).map (shiftedBin 6) = [3, 4, 5, 0, 1, 2] := by
  refine ⟨dcIndex_small (by norm_num) (by norm_num), by unfold dcIndex; decide +kernel,
    ⟨?_, ?_⟩, by decide⟩
  · intro i h _
    have : i < 4 := by simpa [halfN] using h
    interval_cases i <;> rfl
  · intro i h0 h6
    interval_cases i <;> rfl

/-! ## C94: the full transform -/

/-- `bland::cuda::fft` (frequency_cuda.cu lines 76-103): cuFFT stores `N/2 + 1` outputs at the start
of the result (line 91), then the elements `half_N - 2, …, 1` are conjugated into the places from
`half_N` on (lines 97-101). The range of the reversed iterators is backwards, which is undefined,
when `half_N < 2`. The copy is taken to run after the transform and on the device; `N` floats of
complex content `junk` are allocated (frequency.cpp line 57). -/
def fullFft (conj : C → C) (X : Nat → C) (N : Nat) (junk : Int → C) : Outcome (Buf C) :=
  if halfN N < 2 then .ub
  else if N < halfN N + (halfN N - 2) then .ub
  else .ok fun i =>
    if 0 ≤ i ∧ i < (N : Int) then
      if i < halfN N then some (X i.toNat)
      else if i - halfN N < (halfN N : Int) - 2 then some (conj (X ((2 * halfN N - 2 : Int) - i).toNat))
      else some (junk i)
    else none

/-- The transform of a real signal of length `n` is what its first half determines: element `n - i`
is the conjugate of element `i`. -/
structure RealTransform (conj : C → C) (X Y : Nat → C) (n : Nat) : Prop where
  first : ∀ i, i < halfN n → i < n → Y i = X i
  symm : ∀ i, 0 < i → i < n → Y (n - i) = conj (Y i)

/-- **C94**, even lengths: every element of the result is that of the transform. Missing: odd
lengths, where the property fails (`C94_odd_shifted`), and the CPU, which does not transform at all
(`C94_cpu_not_implemented`). -/
theorem C94_gpu_fft_partial (conj : C → C) (X Y : Nat → C) (N : Nat) (junk : Int → C)
    (h0 : 0 < N) (he : N % 2 = 0) (hY : RealTransform conj X Y N) :
    ∃ out, fullFft conj X N junk = .ok out ∧ ∀ k : Nat, k < N → out k = some (Y k) := by
  unfold fullFft
  have hh : halfN N = N / 2 + 1 := rfl
  rw [if_neg (by omega), if_neg (by omega)]
  refine ⟨_, rfl, fun k hk => ?_⟩
  rw [if_pos (by omega)]
  split
  · next h => rw [Int.toNat_natCast, hY.first k (by omega) hk]
  · next h =>
    rw [if_pos (by omega)]
    have e1 : ((2 * halfN N - 2 : Int) - k).toNat = N - k := by omega
    have e2 := hY.symm (N - k) (by omega) (by omega)
    rw [e1, ← hY.first (N - k) (by omega) (by omega), ← e2]
    congr 2; omega

/-- **Violation of C94.** At every odd length from 5 on the second half is shifted: the element after
the middle is the conjugate of the wrong element, and the last element is never written. At length 3
the last element is never written, and lengths 0 and 1 are undefined. -/
theorem C94_odd_shifted (conj : C → C) (X : Nat → C) (N : Nat) (junk : Int → C) :
    (5 ≤ N → N % 2 = 1 → ∃ out, fullFft conj X N junk = .ok out ∧
      (∀ k : Nat, N / 2 + 1 ≤ k → k + 1 < N → out k = some (conj (X (N - k - 1)))) ∧
      out ((N : Int) - 1) = some (junk ((N : Int) - 1))) ∧
    (N = 3 → ∃ out, fullFft conj X N junk = .ok out ∧ out 2 = some (junk 2)) ∧
    (N ≤ 1 → fullFft conj X N junk = .ub) := by
  have hh : halfN N = N / 2 + 1 := rfl
  refine ⟨fun h5 ho => ?_, fun h3 => ?_, fun h1 => ?_⟩
  · unfold fullFft
    rw [if_neg (by omega), if_neg (by omega)]
    refine ⟨_, rfl, fun k h1 h2 => ?_, ?_⟩
    · rw [if_pos (by omega), if_neg (by omega), if_pos (by omega)]
      congr 3; omega
    · rw [if_pos (by omega), if_neg (by omega), if_neg (by omega)]
  · unfold fullFft
    rw [if_neg (by omega), if_neg (by omega)]
    refine ⟨_, rfl, ?_⟩
    rw [if_pos (by omega), if_neg (by omega), if_neg (by omega)]
  · unfold fullFft
    rw [if_pos (by omega)]

/-- **Violation of C94.** The shift matters: at length 5 elements 2 and 3 have to be conjugate, but
element 3 of the result is the conjugate of element 1. Here the elements are imaginary parts, so
conjugation negates. -/
theorem C94_odd_wrong : ∃ (X Y : Nat → Int), RealTransform (fun c => -c) X Y 5 ∧
    ∀ junk, ∃ out, fullFft (fun c => -c) X 5 junk = .ok out ∧ out 3 ≠ some (Y 3) := by
  refine ⟨fun i => [0, 1, 2].getD i 0, fun i => [0, 1, 2, -2, -1].getD i 0, ⟨?_, ?_⟩, fun junk => ?_⟩
  · intro i h _
    have : i < 3 := by simpa [halfN] using h
    interval_cases i <;> rfl
  · intro i h0 h5
    interval_cases i <;> rfl
  · refine ⟨_, rfl, ?_⟩
    show some (-(1 : Int)) ≠ some (-2)
    decide

/-- `bland::cpu::fft` (frequency_cpu_impl.cpp lines 15-18): prints a warning and returns the array as
allocated. -/
def cpuFft (N : Nat) (junk : Int → C) : Outcome (Buf C) := .ok (Buf.ofFn N junk)

/-- **Violation of C94.** On the CPU the result is whatever the allocation held. -/
theorem C94_cpu_not_implemented (N : Nat) (junk : Int → C) :
    ∃ out, cpuFft N junk = .ok out ∧ ∀ k : Nat, k < N → out k = some (junk k) := by
  refine ⟨_, rfl, fun k hk => ?_⟩
  simp only [Buf.ofFn]
  rw [if_pos (by omega)]

/-- Concrete case for `C94_gpu_fft_partial`. -/
example : RealTransform (fun c : Int => -c) (fun i => [0, 1, 2, 0].getD i 0)
    (fun i => [0, 1, 2, 0, -2, -1].getD i 0) 6 := by
  refine ⟨?_, ?_⟩
  · intro i h _
    have : i < 4 := by simpa [halfN] using h
    interval_cases i <;> rfl
  · intro i h0 h5
    interval_cases i <;> rfl

end Bliss.Gpu
