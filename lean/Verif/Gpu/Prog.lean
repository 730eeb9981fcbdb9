import Verif.Gpu.Sched
import Mathlib.Algebra.BigOperators.Group.Finset.Basic
import Mathlib.Algebra.Order.BigOperators.Group.Finset

/-!
# Threads as programs over memory, and launches without races

A memory maps addresses to cells; an address without a cell is outside every allocation.
`Prog` is the text of one thread: loads, stores and a result, where a store or a load outside
an allocation is undefined. The main theorem is that a launch whose threads do not touch what
another thread writes behaves, thread by thread, as if each thread had run alone.
-/

namespace Bliss.Gpu

/-- Device memory: `none` is an address outside every allocation. -/
abbrev Mem (A V : Type) := A → Option V

/-- Two memories agree on a set of addresses. -/
def Agree {A V : Type} (X : A → Prop) (s s' : Mem A V) : Prop := ∀ a, X a → s a = s' a

theorem Agree.refl {A V : Type} (X : A → Prop) (s : Mem A V) : Agree X s s := fun _ _ => rfl

theorem Agree.symm {A V : Type} {X : A → Prop} {s s' : Mem A V} (h : Agree X s s') :
    Agree X s' s := fun a ha => (h a ha).symm

theorem Agree.trans {A V : Type} {X : A → Prop} {s s' s'' : Mem A V} (h : Agree X s s')
    (h' : Agree X s' s'') : Agree X s s'' := fun a ha => (h a ha).trans (h' a ha)

theorem Agree.mono {A V : Type} {X Y : A → Prop} {s s' : Mem A V} (h : Agree X s s')
    (hXY : ∀ a, Y a → X a) : Agree Y s s' := fun a ha => h a (hXY a ha)

/-! ## One component alone -/

/-- The executions of one thread (or block) with the memory to itself. -/
inductive Alone {L σ : Type} (K : Kernel L σ) : L → σ → Outcome (L × σ) → Prop
  | stop (l : L) (s : σ) : Alone K l s (.ok (l, s))
  | step {l l' : L} {s s' : σ} {o : Outcome (L × σ)} (h : K l s (.ok (l', s')))
      (rest : Alone K l' s' o) : Alone K l s o
  | fault {l : L} {s : σ} (h : K l s .ub) : Alone K l s .ub

theorem Alone.trans {L σ : Type} {K : Kernel L σ} {l l' : L} {s s' : σ} {o : Outcome (L × σ)}
    (h : Alone K l s (.ok (l', s'))) (h' : Alone K l' s' o) : Alone K l s o := by
  generalize hr : (Outcome.ok (l', s') : Outcome (L × σ)) = r at h
  induction h with
  | stop l s => cases hr; exact h'
  | step hk _ ih => exact .step hk (ih hr)
  | fault hk => cases hr

/-- `K` on states satisfying `P` looks only at the addresses in `X` and changes only those
in `W`. -/
structure Footprint {L A V : Type} (K : Kernel L (Mem A V)) (P : L → Prop) (X W : A → Prop) :
    Prop where
  /-- what is written belongs to the footprint -/
  sub : ∀ a, W a → X a
  /-- a step can be taken in every memory that agrees on `X`, with the same result on `X` -/
  local_ok : ∀ l s t l' s', P l → Agree X s t → K l s (.ok (l', s')) →
    ∃ t', K l t (.ok (l', t')) ∧ Agree X s' t'
  local_ub : ∀ l s t, P l → Agree X s t → K l s .ub → K l t .ub
  pres : ∀ l s l' s', P l → K l s (.ok (l', s')) → P l'
  frame : ∀ l s l' s', P l → K l s (.ok (l', s')) → ∀ a, ¬ W a → s' a = s a

/-- A launch of components that do not touch what another component writes: an execution of
the launch is, for every component, an execution of that component alone, as far as its own
addresses are concerned; addresses written by no component keep their contents. -/
theorem Exec.project {ι L A V : Type} [DecidableEq ι] {K : Kernel L (Mem A V)}
    {P : ι → L → Prop} {X W : ι → A → Prop} (hF : ∀ i, Footprint K (P i) (X i) (W i))
    (hD : ∀ i j a, i ≠ j → W i a → ¬ X j a)
    {ls : ι → L} {s : Mem A V} {o : Outcome ((ι → L) × Mem A V)} (h : Exec K ls s o)
    (hP : ∀ i, P i (ls i)) (t : ι → Mem A V) (ht : ∀ i, Agree (X i) s (t i)) :
    (∀ ls' s', o = .ok (ls', s') →
      (∀ i, ∃ t', Alone K (ls i) (t i) (.ok (ls' i, t')) ∧ Agree (X i) s' t') ∧
      ∀ a, (∀ i, ¬ W i a) → s' a = s a) ∧
    (o = .ub → ∃ i, Alone K (ls i) (t i) .ub) := by
  induction h generalizing t with
  | stop ls s =>
    refine ⟨fun ls' s' e => ?_, fun e => by cases e⟩
    cases e
    exact ⟨fun i => ⟨t i, .stop _ _, ht i⟩, fun _ _ => rfl⟩
  | @step ls s s' l' o i hk _ ih =>
    obtain ⟨ti', hk', ha⟩ := (hF i).local_ok _ _ _ _ _ (hP i) (ht i) hk
    have hP' : ∀ j, P j (Function.update ls i l' j) := by
      intro j
      by_cases hj : j = i
      · subst hj; simpa using (hF j).pres _ _ _ _ (hP j) hk
      · rw [Function.update_of_ne hj]; exact hP j
    have ht' : ∀ j, Agree (X j) s' (Function.update t i ti' j) := by
      intro j
      by_cases hj : j = i
      · subst hj; simpa using ha
      · rw [Function.update_of_ne hj]
        intro a hXa
        rw [(hF i).frame _ _ _ _ (hP i) hk a (fun hW => hD i j a (Ne.symm hj) hW hXa)]
        exact ht j a hXa
    obtain ⟨h1, h2⟩ := ih hP' (Function.update t i ti') ht'
    have lift : ∀ j r, Alone K (Function.update ls i l' j) (Function.update t i ti' j) r →
        Alone K (ls j) (t j) r := by
      intro j r hr
      by_cases hj : j = i
      · subst hj
        rw [Function.update_self, Function.update_self] at hr
        exact .step hk' hr
      · rwa [Function.update_of_ne hj, Function.update_of_ne hj] at hr
    refine ⟨fun ls' s'' e => ?_, fun e => ?_⟩
    · obtain ⟨h3, h4⟩ := h1 ls' s'' e
      refine ⟨fun j => ?_, fun a hn => ?_⟩
      · obtain ⟨t', h5, h6⟩ := h3 j
        exact ⟨t', lift j _ h5, h6⟩
      · rw [h4 a hn, (hF i).frame _ _ _ _ (hP i) hk a (hn i)]
    · obtain ⟨j, hj⟩ := h2 e
      exact ⟨j, lift j _ hj⟩
  | @fault ls s i hk =>
    refine ⟨fun ls' s' e => (by cases e), fun _ => ⟨i, .fault ?_⟩⟩
    exact (hF i).local_ub _ _ _ (hP i) (ht i) hk

/-! ## Programs -/

/-- The text of a thread: accesses to memory in program order. -/
inductive Prog (A V α : Type) where
  | ret (x : α)
  | load (a : A) (k : V → Prog A V α)
  | store (a : A) (v : V) (k : Prog A V α)
  | fault

namespace Prog

/-- Sequencing. -/
def bind {A V α β : Type} : Prog A V α → (α → Prog A V β) → Prog A V β
  | .ret x, f => f x
  | .load a k, f => .load a (fun v => (k v).bind f)
  | .store a v k, f => .store a v (k.bind f)
  | .fault, _ => .fault

instance {A V : Type} : Monad (Prog A V) where
  pure := Prog.ret
  bind := Prog.bind

/-- `for (k = 0; k < n; ++k)` in a thread. -/
def loop {A V α : Type} : (n : Nat) → (Nat → α → Prog A V α) → α → Prog A V α
  | 0, _, x => .ret x
  | n + 1, f, x => (loop n f x).bind (f n)

/-- Run `body` for each element of a list, in order. -/
def each {A V τ : Type} : List τ → (τ → Prog A V Unit) → Prog A V Unit
  | [], _ => .ret ()
  | x :: xs, f => (f x).bind fun _ => each xs f

/-- A pure result that may be undefined. -/
def ofOutcome {A V α : Type} : Outcome α → Prog A V α
  | .ok x => .ret x
  | _ => .fault

variable {A V α β : Type} [DecidableEq A]

/-- Running a program alone. -/
def run : Prog A V α → Mem A V → Outcome (α × Mem A V)
  | .ret x, s => .ok (x, s)
  | .load a k, s =>
    match s a with
    | some v => (k v).run s
    | none => .ub
  | .store a v k, s =>
    match s a with
    | some _ => k.run (Function.update s a (some v))
    | none => .ub
  | .fault, _ => .ub

theorem run_bind (p : Prog A V α) (f : α → Prog A V β) (s : Mem A V) :
    (p.bind f).run s = p.run s >>= fun r => (f r.1).run r.2 := by
  induction p generalizing s with
  | ret x => rfl
  | load a k ih =>
    simp only [bind, run]
    cases s a with
    | none => rfl
    | some v => exact ih v s
  | store a v k ih =>
    simp only [bind, run]
    cases s a with
    | none => rfl
    | some w => exact ih _
  | fault => rfl

/-- Every access of the program, whatever it reads, is inside the footprint: loads in `X`,
stores in `W`. -/
inductive Within (X W : A → Prop) : Prog A V α → Prop
  | ret (x : α) : Within X W (.ret x)
  | load {a : A} {k : V → Prog A V α} (h : X a) (hk : ∀ v, Within X W (k v)) :
      Within X W (.load a k)
  | store {a : A} {v : V} {k : Prog A V α} (h : W a) (hk : Within X W k) :
      Within X W (.store a v k)
  | fault : Within X W .fault

/-- At most `n` accesses, whatever is read. -/
inductive Bounded : Nat → Prog A V α → Prop
  | ret (n : Nat) (x : α) : Bounded n (.ret x)
  | load {n : Nat} {a : A} {k : V → Prog A V α} (hk : ∀ v, Bounded n (k v)) :
      Bounded (n + 1) (.load a k)
  | store {n : Nat} {a : A} {v : V} {k : Prog A V α} (hk : Bounded n k) :
      Bounded (n + 1) (.store a v k)
  | fault (n : Nat) : Bounded n .fault

omit [DecidableEq A] in
theorem Within.mono {X W X' W' : A → Prop} {p : Prog A V α} (h : Within X W p)
    (hX : ∀ a, X a → X' a) (hW : ∀ a, W a → W' a) : Within X' W' p := by
  induction h with
  | ret x => exact .ret x
  | load h _ ih => exact .load (hX _ h) ih
  | store h _ ih => exact .store (hW _ h) ih
  | fault => exact .fault

omit [DecidableEq A] in
theorem Within.bind {X W : A → Prop} {p : Prog A V α} {f : α → Prog A V β}
    (h : Within X W p) (hf : ∀ x, Within X W (f x)) : Within X W (p.bind f) := by
  induction h with
  | ret x => exact hf x
  | load h _ ih => exact .load h ih
  | store h _ ih => exact .store h ih
  | fault => exact .fault

omit [DecidableEq A] in
theorem Within.loop {X W : A → Prop} {n : Nat} {f : Nat → α → Prog A V α}
    (hf : ∀ k < n, ∀ x, Within X W (f k x)) (x : α) : Within X W (loop n f x) := by
  induction n with
  | zero => exact .ret x
  | succ n ih => exact (ih (fun k hk => hf k (by omega))).bind (hf n (by omega))

omit [DecidableEq A] in
theorem Within.each {τ : Type} {X W : A → Prop} {xs : List τ} {f : τ → Prog A V Unit}
    (hf : ∀ x ∈ xs, Within X W (f x)) : Within X W (each xs f) := by
  induction xs with
  | nil => exact .ret ()
  | cons x xs ih =>
    exact (hf x (by simp)).bind fun _ => ih fun y hy => hf y (by simp [hy])

omit [DecidableEq A] in
theorem Within.ofOutcome {X W : A → Prop} (o : Outcome α) :
    Within X W (ofOutcome o : Prog A V α) := by
  cases o <;> constructor

omit [DecidableEq A] in
theorem Bounded.mono {n m : Nat} {p : Prog A V α} (h : Bounded n p) (hnm : n ≤ m) :
    Bounded m p := by
  induction h generalizing m with
  | ret n x => exact .ret m x
  | load _ ih =>
    obtain ⟨m, rfl⟩ := Nat.exists_eq_add_of_le hnm
    rw [show ∀ n, n + 1 + m = n + m + 1 by intro n; omega]
    exact .load fun v => ih v (by omega)
  | store _ ih =>
    obtain ⟨m, rfl⟩ := Nat.exists_eq_add_of_le hnm
    rw [show ∀ n, n + 1 + m = n + m + 1 by intro n; omega]
    exact .store (ih (by omega))
  | fault n => exact .fault m

omit [DecidableEq A] in
theorem Bounded.bind {n m : Nat} {p : Prog A V α} {f : α → Prog A V β} (h : Bounded n p)
    (hf : ∀ x, Bounded m (f x)) : Bounded (n + m) (p.bind f) := by
  induction h with
  | ret n x => exact (hf x).mono (by omega)
  | @load n a k _ ih =>
    rw [show n + 1 + m = n + m + 1 by omega]
    exact .load ih
  | @store n a v k _ ih =>
    rw [show n + 1 + m = n + m + 1 by omega]
    exact .store ih
  | fault n => exact .fault _

omit [DecidableEq A] in
theorem Bounded.loop {n m : Nat} {f : Nat → α → Prog A V α}
    (hf : ∀ k < n, ∀ x, Bounded m (f k x)) (x : α) : Bounded (n * m) (loop n f x) := by
  induction n with
  | zero => exact .ret _ x
  | succ n ih =>
    rw [Nat.succ_mul]
    exact (ih (fun k hk => hf k (by omega))).bind (hf n (by omega))

omit [DecidableEq A] in
theorem Bounded.each {τ : Type} {m : Nat} {xs : List τ} {f : τ → Prog A V Unit}
    (hf : ∀ x ∈ xs, Bounded m (f x)) : Bounded (xs.length * m) (each xs f) := by
  induction xs with
  | nil => exact .ret _ ()
  | cons x xs ih =>
    rw [List.length_cons, Nat.succ_mul, Nat.add_comm]
    exact (hf x (by simp)).bind fun _ => ih fun y hy => hf y (by simp [hy])

omit [DecidableEq A] in
theorem Bounded.ofOutcome (o : Outcome α) : Bounded 0 (ofOutcome o : Prog A V α) := by
  cases o <;> constructor

/-- A program run alone looks only at its footprint and changes only what it writes. -/
theorem Within.run_congr {X W : A → Prop} (hWX : ∀ a, W a → X a) {p : Prog A V α}
    (h : Within X W p) {s t : Mem A V} (hst : Agree X s t) :
    (∀ x s', p.run s = .ok (x, s') → ∃ t', p.run t = .ok (x, t') ∧ Agree X s' t' ∧
      (∀ a, ¬ W a → s' a = s a) ∧ ∀ a, ¬ W a → t' a = t a) ∧
    (p.run s = .ub → p.run t = .ub) := by
  induction h generalizing s t with
  | ret x =>
    refine ⟨fun y s' e => ?_, fun e => by cases e⟩
    cases e
    exact ⟨t, rfl, hst, fun _ _ => rfl, fun _ _ => rfl⟩
  | @load a k h _ ih =>
    simp only [run, ← hst a h]
    cases hs : s a with
    | none => exact ⟨fun _ _ e => (by cases e), fun _ => rfl⟩
    | some v => exact ih v hst
  | @store a v k h _ ih =>
    simp only [run, ← hst a (hWX a h)]
    cases hs : s a with
    | none => exact ⟨fun _ _ e => (by cases e), fun _ => rfl⟩
    | some w =>
      have hst' : Agree X (Function.update s a (some v)) (Function.update t a (some v)) := by
        intro b hb
        by_cases hba : b = a
        · subst hba; simp
        · simp only [Function.update_of_ne hba]; exact hst b hb
      obtain ⟨h1, h2⟩ := ih hst'
      refine ⟨fun x s' e => ?_, h2⟩
      obtain ⟨t', h3, h4, h5, h6⟩ := h1 x s' e
      refine ⟨t', h3, h4, fun b hb => ?_, fun b hb => ?_⟩
      · rw [h5 b hb, Function.update_of_ne]; rintro rfl; exact hb h
      · rw [h6 b hb, Function.update_of_ne]; rintro rfl; exact hb h
  | fault => exact ⟨fun _ _ e => (by cases e), fun _ => rfl⟩

theorem run_not_throws (p : Prog A V α) (s : Mem A V) (e : Err) : p.run s ≠ .throws e := by
  induction p generalizing s with
  | ret x => exact fun h => (by cases h)
  | load a k ih =>
    simp only [run]
    cases s a with
    | none => exact fun h => (by cases h)
    | some v => exact ih v s
  | store a v k ih =>
    simp only [run]
    cases s a with
    | none => exact fun h => (by cases h)
    | some w => exact ih _
  | fault => exact fun h => (by cases h)

end Prog

/-- The steps of a thread running a program. -/
inductive ProgStep {A V α : Type} [DecidableEq A] : Kernel (Prog A V α) (Mem A V)
  | load {a : A} {k : V → Prog A V α} {s : Mem A V} {v : V} (h : s a = some v) :
      ProgStep (.load a k) s (.ok (k v, s))
  | loadBad {a : A} {k : V → Prog A V α} {s : Mem A V} (h : s a = none) :
      ProgStep (.load a k) s .ub
  | store {a : A} {v w : V} {k : Prog A V α} {s : Mem A V} (h : s a = some w) :
      ProgStep (.store a v k) s (.ok (k, Function.update s a (some v)))
  | storeBad {a : A} {v : V} {k : Prog A V α} {s : Mem A V} (h : s a = none) :
      ProgStep (.store a v k) s .ub
  | fault {s : Mem A V} : ProgStep .fault s .ub

section
variable {A V α : Type} [DecidableEq A]

theorem returned_iff {p : Prog A V α} [Nonempty V] :
    Returned (ProgStep (α := α)) p ↔ ∃ x, p = .ret x := by
  constructor
  · intro h
    cases p with
    | ret x => exact ⟨x, rfl⟩
    | load a k => exact absurd (ProgStep.loadBad rfl) (h (fun _ => none) .ub)
    | store a v k => exact absurd (ProgStep.storeBad rfl) (h (fun _ => none) .ub)
    | fault => exact absurd ProgStep.fault (h (fun _ => none) .ub)
  · rintro ⟨x, rfl⟩ s r h
    cases h

theorem progStep_progress (p : Prog A V α) (s : Mem A V) :
    Returned (ProgStep (α := α)) p ∨ ∃ r, ProgStep p s r := by
  cases p with
  | ret x => exact .inl fun s r h => by cases h
  | load a k =>
    cases h : s a with
    | none => exact .inr ⟨_, .loadBad h⟩
    | some v => exact .inr ⟨_, .load h⟩
  | store a v k =>
    cases h : s a with
    | none => exact .inr ⟨_, .storeBad h⟩
    | some w => exact .inr ⟨_, .store h⟩
  | fault => exact .inr ⟨_, .fault⟩

theorem progStep_not_throws (p : Prog A V α) (s : Mem A V) (e : Err) :
    ¬ ProgStep p s (.throws e) := fun h => by cases h

/-- A thread running alone computes `run`. -/
theorem alone_run {p : Prog A V α} {s : Mem A V} {o : Outcome (Prog A V α × Mem A V)}
    (h : Alone ProgStep p s o) :
    (∀ p' s', o = .ok (p', s') → p.run s = p'.run s') ∧ (o = .ub → p.run s = .ub) := by
  induction h with
  | stop l s => exact ⟨fun p' s' e => by cases e; rfl, fun e => by cases e⟩
  | @step l l' s s' o hk _ ih =>
    have : l.run s = l'.run s' := by
      cases hk with
      | load h => simp [Prog.run, h]
      | store h => simp [Prog.run, h]
    rw [this]; exact ih
  | @fault l s hk =>
    refine ⟨fun _ _ e => (by cases e), fun _ => ?_⟩
    cases hk with
    | loadBad h => simp [Prog.run, h]
    | storeBad h => simp [Prog.run, h]
    | fault => rfl

theorem run_alone (p : Prog A V α) (s : Mem A V) :
    (∀ x s', p.run s = .ok (x, s') → Alone ProgStep p s (.ok (.ret x, s'))) ∧
    (p.run s = .ub → Alone ProgStep p s .ub) := by
  induction p generalizing s with
  | ret x =>
    refine ⟨fun y s' e => ?_, fun e => by cases e⟩
    cases e; exact .stop _ _
  | load a k ih =>
    cases h : s a with
    | none =>
      simp only [Prog.run, h]
      exact ⟨fun _ _ e => (by cases e), fun _ => .fault (.loadBad h)⟩
    | some v =>
      simp only [Prog.run, h]
      exact ⟨fun x s' e => .step (.load h) ((ih v s).1 x s' e),
        fun e => .step (.load h) ((ih v s).2 e)⟩
  | store a v k ih =>
    cases h : s a with
    | none =>
      simp only [Prog.run, h]
      exact ⟨fun _ _ e => (by cases e), fun _ => .fault (.storeBad h)⟩
    | some w =>
      simp only [Prog.run, h]
      exact ⟨fun x s' e => .step (.store h) ((ih _).1 x s' e),
        fun e => .step (.store h) ((ih _).2 e)⟩
  | fault => exact ⟨fun _ _ e => (by cases e), fun _ => .fault .fault⟩

/-- Programs within a footprint form a component with that footprint. -/
theorem prog_footprint {X W : A → Prop} (hWX : ∀ a, W a → X a) :
    Footprint (ProgStep (V := V) (α := α)) (Prog.Within X W) X W where
  sub := hWX
  local_ok := by
    intro l s t l' s' hP hst hk
    cases hk with
    | load h =>
      cases hP with
      | load hx hkk => exact ⟨t, .load (by rw [← hst _ hx]; exact h), hst⟩
    | @store a v w k s h =>
      cases hP with
      | store hw hkk =>
        refine ⟨_, .store (by rw [← hst _ (hWX _ hw)]; exact h), ?_⟩
        intro b hb
        by_cases hba : b = a
        · subst hba; simp
        · simp only [Function.update_of_ne hba]; exact hst b hb
  local_ub := by
    intro l s t hP hst hk
    cases hk with
    | loadBad h =>
      cases hP with
      | load hx hkk => exact .loadBad (by rw [← hst _ hx]; exact h)
    | storeBad h =>
      cases hP with
      | store hw hkk => exact .storeBad (by rw [← hst _ (hWX _ hw)]; exact h)
    | fault => exact .fault
  pres := by
    intro l s l' s' hP hk
    cases hk with
    | load h => cases hP with | load hx hkk => exact hkk _
    | store h => cases hP with | store hw hkk => exact hkk
  frame := by
    intro l s l' s' hP hk a ha
    cases hk with
    | load h => rfl
    | @store b v w k s h =>
      cases hP with
      | store hw hkk =>
        rw [Function.update_of_ne]
        rintro rfl
        exact ha hw

/-- A step uses up one of the accesses a bounded program has left. -/
theorem Prog.Bounded.step {n : Nat} {p p' : Prog A V α} {s s' : Mem A V}
    (h : Prog.Bounded n p) (hk : ProgStep p s (.ok (p', s'))) :
    0 < n ∧ Prog.Bounded (n - 1) p' := by
  cases hk with
  | load _ => cases h with | load h => exact ⟨Nat.succ_pos _, h _⟩
  | store _ => cases h with | store h => exact ⟨Nat.succ_pos _, h⟩

open Classical in
/-- The least bound on the accesses of a program. -/
noncomputable def Prog.cost (p : Prog A V α) : Nat :=
  if h : ∃ n, Prog.Bounded n p then Nat.find h else 0

theorem Prog.cost_step {p p' : Prog A V α} {s s' : Mem A V} (h : ∃ n, Prog.Bounded n p)
    (hk : ProgStep p s (.ok (p', s'))) :
    (∃ n, Prog.Bounded n p') ∧ p'.cost < p.cost := by
  classical
  obtain ⟨h1, h2⟩ := (Nat.find_spec h).step hk
  refine ⟨⟨_, h2⟩, ?_⟩
  have h3 : p'.cost ≤ Nat.find h - 1 := by
    rw [Prog.cost, dif_pos ⟨_, h2⟩]
    exact Nat.find_min' _ h2
  rw [Prog.cost.eq_def p, dif_pos h]
  omega

/-! ## Launches of programs -/

/-- A launch of finitely many bounded programs always terminates. -/
theorem prog_terminates {ι : Type} [DecidableEq ι] [Fintype ι] {ps : ι → Prog A V α}
    (hb : ∀ i, ∃ n, Prog.Bounded n (ps i)) (s : Mem A V) : Terminates ProgStep ps s := by
  refine terminates_of_measure (fun x => ∀ i, ∃ n, Prog.Bounded n (x.1 i))
    (fun x => ∑ i, (x.1 i).cost) hb ?_
  rintro ⟨ls, s⟩ ⟨ls', s'⟩ hJ ⟨i, l', hk, he⟩
  simp only at he hk hJ
  subst he
  obtain ⟨h1, h2⟩ := Prog.cost_step (hJ i) hk
  refine ⟨fun j => ?_, ?_⟩
  · by_cases hj : j = i
    · subst hj; simpa using h1
    · simpa [Function.update_of_ne hj] using hJ j
  · refine Finset.sum_lt_sum (fun j _ => ?_) ⟨i, Finset.mem_univ i, by simpa using h2⟩
    by_cases hj : j = i
    · subst hj; simpa using h2.le
    · simp [Function.update_of_ne hj]

/-- Programs that terminate and never fault have a complete execution. -/
theorem prog_completes {ι : Type} [DecidableEq ι] [Fintype ι] {ps : ι → Prog A V α}
    (hb : ∀ i, ∃ n, Prog.Bounded n (ps i)) (s : Mem A V) (hs : ¬ Exec ProgStep ps s .ub) :
    ∃ s', Completes ProgStep ps s s' := by
  refine exists_complete
    (fun ls t => (∀ i, ∃ n, Prog.Bounded n (ls i)) ∧ ¬ Exec ProgStep ls t .ub)
    (fun ls _ => ∑ i, (ls i).cost) ?_ ?_ ps s ⟨hb, hs⟩
  · rintro ls s i l' s' ⟨hJ, hu⟩ hk
    obtain ⟨h1, h2⟩ := Prog.cost_step (hJ i) hk
    refine ⟨⟨fun j => ?_, fun hx => hu (.step i hk hx)⟩, ?_⟩
    · by_cases hj : j = i
      · subst hj; simpa using h1
      · simpa [Function.update_of_ne hj] using hJ j
    · refine Finset.sum_lt_sum (fun j _ => ?_) ⟨i, Finset.mem_univ i, by simpa using h2⟩
      by_cases hj : j = i
      · subst hj; simpa using h2.le
      · simp [Function.update_of_ne hj]
  · rintro ls s i ⟨_, hu⟩
    rcases progStep_progress (ls i) s with h | ⟨r, h⟩
    · exact .inl h
    · cases r with
      | ok x => exact .inr ⟨x.1, x.2, h⟩
      | throws e => exact absurd h (progStep_not_throws _ _ _)
      | ub => exact absurd (.fault i h) hu

/-- Race-free launches: if no thread touches what another thread writes, every execution is
free of undefined behaviour as soon as every thread alone is, and a complete execution leaves
what every thread alone leaves. -/
theorem raceFree {ι : Type} [DecidableEq ι] {ps : ι → Prog A V α} {X W : ι → A → Prop}
    (hWX : ∀ i a, W i a → X i a) (hD : ∀ i j a, i ≠ j → W i a → ¬ X j a)
    (hw : ∀ i, Prog.Within (X i) (W i) (ps i)) (s : Mem A V) :
    ((∀ i, ∃ r, (ps i).run s = .ok r) → ¬ Exec ProgStep ps s .ub) ∧
    ∀ s', Completes ProgStep ps s s' →
      (∀ i, ∃ x t, (ps i).run s = .ok (x, t) ∧ Agree (X i) s' t) ∧
      ∀ a, (∀ i, ¬ W i a) → s' a = s a := by
  constructor
  · intro hok hE
    obtain ⟨i, hi⟩ := ((hE.project (fun i => prog_footprint (hWX i)) hD hw (fun _ => s)
      (fun _ => Agree.refl _ _)).2 rfl)
    obtain ⟨r, hr⟩ := hok i
    rw [(alone_run hi).2 rfl] at hr
    cases hr
  · rintro s' ⟨ls', hE, hret⟩
    obtain ⟨h1, h2⟩ := (hE.project (fun i => prog_footprint (hWX i)) hD hw (fun _ => s)
      (fun _ => Agree.refl _ _)).1 _ _ rfl
    refine ⟨fun i => ?_, h2⟩
    obtain ⟨t, h3, h4⟩ := h1 i
    have h5 : ∃ x, ls' i = .ret x := by
      have := hret i
      generalize ls' i = p at this
      cases p with
      | ret x => exact ⟨x, rfl⟩
      | load a k => exact absurd (ProgStep.loadBad rfl) (this (fun _ => none) .ub)
      | store a v k => exact absurd (ProgStep.storeBad rfl) (this (fun _ => none) .ub)
      | fault => exact absurd ProgStep.fault (this (fun _ => none) .ub)
    obtain ⟨x, hx⟩ := h5
    rw [hx] at h3
    exact ⟨x, t, (alone_run h3).1 _ _ rfl, h4⟩

/-! ## Grid-stride launches of independent work items -/

/-- Independent items run one after the other leave, at the addresses of each item, what that
item alone leaves. -/
theorem each_run {τ : Type} {body : τ → Prog A V Unit} {X W : τ → A → Prop}
    (hWX : ∀ n a, W n a → X n a) (hw : ∀ n, Prog.Within (X n) (W n) (body n)) (xs : List τ)
    (hD : ∀ n ∈ xs, ∀ m ∈ xs, ∀ a, n ≠ m → W n a → ¬ X m a) (hnd : xs.Nodup) (s : Mem A V)
    (hok : ∀ n ∈ xs, ∃ t, (body n).run s = .ok ((), t)) :
    ∃ t, (Prog.each xs body).run s = .ok ((), t) ∧
      (∀ n ∈ xs, ∃ tn, (body n).run s = .ok ((), tn) ∧ Agree (X n) t tn) ∧
      ∀ a, (∀ n ∈ xs, ¬ W n a) → t a = s a := by
  induction xs generalizing s with
  | nil => exact ⟨s, rfl, by simp, fun _ _ => rfl⟩
  | cons n xs ih =>
    obtain ⟨t, ht⟩ := hok n (by simp)
    obtain ⟨hn, hnd⟩ := List.nodup_cons.1 hnd
    have hfr : ∀ a, ¬ W n a → t a = s a := by
      obtain ⟨_, h, _, h', _⟩ := ((hw n).run_congr (hWX n) (Agree.refl _ s)).1 _ _ ht
      exact h'
    have hag : ∀ m ∈ xs, Agree (X m) s t := by
      intro m hm a hXa
      refine (hfr a fun hWa => ?_).symm
      exact hD n (by simp) m (by simp [hm]) a (fun e => hn (e ▸ hm)) hWa hXa
    have hok' : ∀ m ∈ xs, ∃ u, (body m).run t = .ok ((), u) := by
      intro m hm
      obtain ⟨u, hu⟩ := hok m (by simp [hm])
      obtain ⟨u', hu', _⟩ := ((hw m).run_congr (hWX m) (hag m hm)).1 _ _ hu
      exact ⟨u', hu'⟩
    obtain ⟨u, hu, h1, h2⟩ := ih (fun k hk m hm => hD k (by simp [hk]) m (by simp [hm])) hnd t hok'
    refine ⟨u, ?_, ?_, ?_⟩
    · rw [Prog.each, Prog.run_bind, ht]; exact hu
    · intro m hm
      rcases List.mem_cons.1 hm with rfl | hm
      · refine ⟨t, ht, fun a hXa => h2 a fun k hk hWk => ?_⟩
        exact hD k (by simp [hk]) m (by simp) a (fun e => hn (e ▸ hk)) hWk hXa
      · obtain ⟨tm, htm, hat⟩ := h1 m hm
        obtain ⟨um, hum⟩ := hok m (by simp [hm])
        obtain ⟨u', hu', ha', _⟩ := ((hw m).run_congr (hWX m) (hag m hm)).1 _ _ hum
        rw [htm] at hu'
        obtain rfl : tm = u' := by
          have := Outcome.ok.inj hu'
          exact congrArg Prod.snd this
        exact ⟨um, hum, hat.trans ha'.symm⟩
    · intro a ha
      rw [h2 a fun m hm => ha m (by simp [hm]), hfr a (ha n (by simp))]

/-- A grid-stride launch of independent work items: it never has undefined behaviour when no
item has, it always terminates, it has a complete execution, and every complete execution
leaves at the addresses of every item what that item alone leaves, and leaves the rest alone. -/
theorem gridStride_exec {body : Nat → Prog A V Unit} {X W : Nat → A → Prop} {G numel : Nat}
    (hG : 0 < G) (hWX : ∀ n a, W n a → X n a)
    (hD : ∀ n < numel, ∀ m < numel, ∀ a, n ≠ m → W n a → ¬ X m a)
    (hw : ∀ n, Prog.Within (X n) (W n) (body n)) (hb : ∀ n, ∃ k, Prog.Bounded k (body n))
    (s : Mem A V) (hok : ∀ n < numel, ∃ t, (body n).run s = .ok ((), t)) :
    let ps : Fin G → Prog A V Unit := fun i => Prog.each (gridStride G numel i) body
    ¬ Exec ProgStep ps s .ub ∧ Terminates ProgStep ps s ∧ (∃ s', Completes ProgStep ps s s') ∧
    ∀ s', Completes ProgStep ps s s' →
      (∀ n < numel, ∃ t, (body n).run s = .ok ((), t) ∧ Agree (X n) s' t) ∧
      ∀ a, (∀ n < numel, ¬ W n a) → s' a = s a := by
  intro ps
  let Xi : Fin G → A → Prop := fun i a => ∃ n ∈ gridStride G numel i, X n a
  let Wi : Fin G → A → Prop := fun i a => ∃ n ∈ gridStride G numel i, W n a
  have hWXi : ∀ i a, Wi i a → Xi i a := fun i a ⟨n, hn, h⟩ => ⟨n, hn, hWX n a h⟩
  have hDi : ∀ i j a, i ≠ j → Wi i a → ¬ Xi j a := by
    rintro i j a hij ⟨n, hn, hWn⟩ ⟨m, hm, hXm⟩
    refine hD n ((mem_gridStride hG).1 hn).1 m ((mem_gridStride hG).1 hm).1 a ?_ hWn hXm
    rintro rfl
    have h1 := gridStride_owner hG i.2 hn
    have h2 := gridStride_owner hG j.2 hm
    exact hij (Fin.ext (h1.trans h2.symm))
  have hwi : ∀ i, Prog.Within (Xi i) (Wi i) (ps i) := fun i =>
    Prog.Within.each fun n hn =>
      (hw n).mono (fun a h => ⟨n, hn, h⟩) (fun a h => ⟨n, hn, h⟩)
  have hbi : ∀ i, ∃ k, Prog.Bounded k (ps i) := by
    intro i
    have : ∃ k, ∀ n ∈ gridStride G numel i, Prog.Bounded k (body n) := by
      generalize gridStride G numel i = xs
      induction xs with
      | nil => exact ⟨0, by simp⟩
      | cons x xs ih =>
        obtain ⟨k, hk⟩ := ih
        obtain ⟨k', hk'⟩ := hb x
        refine ⟨k + k', fun n hn => ?_⟩
        rcases List.mem_cons.1 hn with rfl | hn
        · exact hk'.mono (by omega)
        · exact (hk n hn).mono (by omega)
    obtain ⟨k, hk⟩ := this
    exact ⟨_, Prog.Bounded.each hk⟩
  have hrun := fun i : Fin G => each_run hWX hw (gridStride G numel i)
    (fun n hn m hm => hD n ((mem_gridStride hG).1 hn).1 m ((mem_gridStride hG).1 hm).1)
    (gridStride_nodup hG) s
    (fun n hn => hok n ((mem_gridStride hG).1 hn).1)
  obtain ⟨hR1, hR2⟩ := raceFree hWXi hDi hwi s
  have hub : ¬ Exec ProgStep ps s .ub := hR1 fun i => by
    obtain ⟨t, ht, _⟩ := hrun i
    exact ⟨_, ht⟩
  refine ⟨hub, prog_terminates hbi s, prog_completes hbi s hub, fun s' hs' => ?_⟩
  obtain ⟨h1, h2⟩ := hR2 s' hs'
  constructor
  · intro n hn
    have hmem := mem_gridStride_mod hG hn
    let i : Fin G := ⟨n % G, Nat.mod_lt _ hG⟩
    obtain ⟨x, t, ht, hat⟩ := h1 i
    obtain ⟨t', ht', h3, _⟩ := hrun i
    obtain ⟨tn, htn, h4⟩ := h3 n hmem
    have : t = t' := by
      rw [show (ps i).run s = .ok ((), t') from ht'] at ht
      exact (congrArg Prod.snd (Outcome.ok.inj ht)).symm
    subst this
    refine ⟨tn, htn, fun a ha => ?_⟩
    rw [hat a ⟨n, hmem, ha⟩, h4 a ha]
  · intro a ha
    refine h2 a ?_
    rintro i ⟨n, hn, hWn⟩
    exact ha n ((mem_gridStride hG).1 hn).1 hWn

end

end Bliss.Gpu
