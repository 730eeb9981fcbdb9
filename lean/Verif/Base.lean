/-!
# Outcomes and buffers

Shared vocabulary for modelling C++: a computation either finishes, throws, or has
undefined behaviour; a memory block is a partial map from element offsets.
-/

namespace Bliss

/-- Exceptions of the C++ standard library that the modelled code throws
(`<stdexcept>`, `<optional>`); only the class is kept, not the message. -/
inductive Err
  | runtimeError
  | outOfRange
  | invalidArgument
  | logicError
  | lengthError
  | badOptional
  deriving DecidableEq, Repr

/-- Result of running a piece of C++ code: a value, an exception or undefined behaviour. -/
inductive Outcome (α : Type u)
  | ok (a : α)
  | throws (e : Err)
  | ub
  deriving DecidableEq, Repr

namespace Outcome

/-- Sequencing: exceptions and undefined behaviour propagate. -/
def bind {α : Type u} {β : Type v} (x : Outcome α) (f : α → Outcome β) : Outcome β :=
  match x with
  | ok a => f a
  | throws e => throws e
  | ub => ub

instance : Monad Outcome where
  pure := ok
  bind := bind

@[simp] theorem bind_ok {α β : Type u} (a : α) (f : α → Outcome β) : (ok a >>= f) = f a := rfl
@[simp] theorem bind_throws {α β : Type u} (e : Err) (f : α → Outcome β) :
    ((throws e : Outcome α) >>= f) = throws e := rfl
@[simp] theorem bind_ub {α β : Type u} (f : α → Outcome β) :
    ((ub : Outcome α) >>= f) = ub := rfl
@[simp] theorem pure_eq {α : Type u} (a : α) : (pure a : Outcome α) = ok a := rfl

instance : LawfulMonad Outcome := LawfulMonad.mk'
  (id_map := fun x => by cases x <;> rfl)
  (pure_bind := fun _ _ => rfl)
  (bind_assoc := fun x _ _ => by cases x <;> rfl)

/-- `x` has defined behaviour. -/
def Defined {α : Type u} (x : Outcome α) : Prop := x ≠ ub

end Outcome

/-- A memory block: element offset ↦ value; `none` is outside the allocation. -/
abbrev Buf (α : Type u) := Int → Option α

namespace Buf

/-- Allocation of `n` elements holding `f 0 … f (n-1)`. -/
def ofFn {α : Type u} (n : Int) (f : Int → α) : Buf α :=
  fun i => if 0 ≤ i ∧ i < n then some (f i) else none

/-- Load; undefined behaviour outside the allocation. -/
def load {α : Type u} (b : Buf α) (i : Int) : Outcome α :=
  match b i with
  | some a => .ok a
  | none => .ub

/-- Store; undefined behaviour outside the allocation. -/
def store {α : Type u} (b : Buf α) (i : Int) (a : α) : Outcome (Buf α) :=
  match b i with
  | some _ => .ok (fun j => if j = i then some a else b j)
  | none => .ub

theorem load_some {α : Type u} {b : Buf α} {i : Int} {a : α} (h : b i = some a) :
    b.load i = .ok a := by simp [load, h]

theorem store_some {α : Type u} {b : Buf α} {i : Int} {a' : α} (h : b i = some a') (a : α) :
    b.store i a = .ok (fun j => if j = i then some a else b j) := by simp [store, h]

theorem load_none {α : Type u} {b : Buf α} {i : Int} (h : b i = none) :
    b.load i = .ub := by simp [load, h]

theorem store_none {α : Type u} {b : Buf α} {i : Int} (h : b i = none) (a : α) :
    b.store i a = .ub := by simp [store, h]

end Buf

/-- Run `body` for `i = 0, …, n-1` threading a state: a C++ `for (i = 0; i < n; ++i)` loop. -/
def forLoop {σ : Type u} (n : Nat) (body : Nat → σ → Outcome σ) (s : σ) : Outcome σ :=
  match n with
  | 0 => .ok s
  | n + 1 => do
    let s' ← forLoop n body s
    body n s'

@[simp] theorem forLoop_zero {σ : Type u} (body : Nat → σ → Outcome σ) (s : σ) :
    forLoop 0 body s = .ok s := rfl

theorem forLoop_succ {σ : Type u} (n : Nat) (body : Nat → σ → Outcome σ) (s : σ) :
    forLoop (n + 1) body s = (forLoop n body s >>= fun s' => body n s') := rfl

/-- Loop rule: an invariant that holds initially and is kept by every iteration holds at the end. -/
theorem forLoop_inv {σ : Type u} {n : Nat} {body : Nat → σ → Outcome σ} {s : σ}
    (I : Nat → σ → Prop) (h0 : I 0 s)
    (hstep : ∀ k s, k < n → I k s → ∃ s', body k s = .ok s' ∧ I (k + 1) s') :
    ∃ s', forLoop n body s = .ok s' ∧ I n s' := by
  induction n with
  | zero => exact ⟨s, rfl, h0⟩
  | succ n ih =>
    obtain ⟨s1, h1, hI1⟩ := ih (fun k s hk => hstep k s (by omega))
    obtain ⟨s2, h2, hI2⟩ := hstep n s1 (by omega) hI1
    exact ⟨s2, by simp [forLoop_succ, h1, h2], hI2⟩

/-- The computation does not throw, and any value it returns satisfies `Q`. -/
def Outcome.Quiet {α : Type u} (x : Outcome α) (Q : α → Prop) : Prop :=
  x = .ub ∨ ∃ a, x = .ok a ∧ Q a

theorem Outcome.Quiet.bind {α β : Type u} {x : Outcome α} {Q : α → Prop} {f : α → Outcome β}
    {R : β → Prop} (hx : x.Quiet Q) (hf : ∀ a, Q a → (f a).Quiet R) : (x >>= f).Quiet R := by
  rcases hx with rfl | ⟨a, rfl, ha⟩
  · exact Or.inl rfl
  · exact hf a ha

theorem forLoop_quiet {σ : Type u} {n : Nat} {body : Nat → σ → Outcome σ} {s : σ}
    (I : Nat → σ → Prop) (h0 : I 0 s)
    (hstep : ∀ k s, k < n → I k s → (body k s).Quiet (I (k + 1))) :
    (forLoop n body s).Quiet (I n) := by
  induction n with
  | zero => exact Or.inr ⟨s, rfl, h0⟩
  | succ n ih =>
    exact (ih (fun k s hk => hstep k s (by omega))).bind (fun s' hs' => hstep n s' (by omega) hs')

/-- A loop one of whose iterations is undefined is undefined, provided nothing throws first. -/
theorem forLoop_ub {σ : Type u} {n : Nat} {body : Nat → σ → Outcome σ} {s : σ}
    (I : Nat → σ → Prop) (h0 : I 0 s)
    (hstep : ∀ k s, k < n → I k s → (body k s).Quiet (I (k + 1)))
    {k : Nat} (hk : k < n) (hbad : ∀ s, I k s → body k s = .ub) :
    forLoop n body s = .ub := by
  induction n with
  | zero => omega
  | succ n ih =>
    rw [forLoop_succ]
    by_cases h : k = n
    · subst h
      rcases forLoop_quiet (n := k) I h0 (fun j s hj => hstep j s (by omega)) with h1 | ⟨s', h1, hs'⟩
      · rw [h1]; rfl
      · rw [h1]; exact hbad s' hs'
    · rw [ih (fun j s hj => hstep j s (by omega)) (by omega)]; rfl

end Bliss
