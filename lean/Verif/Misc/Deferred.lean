import Verif.Base
import Mathlib.Tactic.ByContra
import Mathlib.Data.List.Basic
import Mathlib.Order.Lattice

/-!
# Deferred arrays (C57)

Models `bland::ndarray_deferred`, bland/bland/ndarray_deferred.hpp and ndarray_deferred.cpp, as a
state machine: objects refer to shared cells, a cell holds a function or an array, and a history
is any sequence of creations, copies, device moves and reads. One thread (the code has no lock,
ndarray_deferred.cpp line 39). The functions passed in are supposed to return, not to throw.
-/

namespace Bliss.Deferred

/-- `eval_policy`, ndarray_deferred.hpp lines 26-30. -/
inductive Policy
  | memoize | lazy | eager
  deriving DecidableEq, Repr

variable {A Dev : Type}

/-- `std::variant<ndarray, std::function<ndarray()>>`, ndarray_deferred.hpp line 53. A function is
known by the number of the creation that supplied it. -/
inductive Cell (A : Type)
  | arr (a : A)
  | fn (f : Nat)

/-- An `ndarray_deferred` object, ndarray_deferred.hpp lines 53-55: the shared cell (`none` for the
null pointer of a default-constructed object), the device and the policy. `src` is not in the code
and no step looks at it: it names the creation the object descends from by copying. -/
structure Obj (Dev : Type) where
  cell : Option Nat
  device : Option Dev
  policy : Policy
  src : Nat

/-- All objects, all cells, how many objects were created afresh, and how often each function has
been called. -/
structure State (A Dev : Type) where
  objs : List (Obj Dev)
  cells : List (Cell A)
  created : Nat
  calls : Nat → Nat

/-- What the objects do with the outside: `result f k` is what the function of creation `f` returns
at its `k`-th call; `move` is `ndarray::to(device)`. -/
structure Env (A Dev : Type) where
  result : Nat → Nat → A
  move : Dev → A → A

/-- The operations. Object arguments are positions in `State.objs`. -/
inductive Op (A Dev : Type)
  | default
  | ofFn (p : Policy)
  | ofArr (a : A)
  | copy (o : Nat)
  | toDev (o : Nat) (d : Dev)
  | toStr (o : Nat) (d : Dev)
  | read (o : Nat)

def State.empty : State A Dev := ⟨[], [], 0, fun _ => 0⟩

/-- Count one call of function `f`. -/
def State.called (s : State A Dev) (f : Nat) : State A Dev :=
  { s with calls := fun g => if g = f then s.calls g + 1 else s.calls g }

/-- ndarray_deferred.cpp lines 38-57, `operator ndarray`: take the array or call the function;
move to the object's device; store the result in the shared cell if the policy is memoize. -/
def readObj (E : Env A Dev) (s : State A Dev) (o : Obj Dev) : Outcome (State A Dev × A) :=
  match o.cell with
  | none => .ub
  | some c => match s.cells[c]? with
    | none => .ub
    | some cell =>
      let (s, v) := match cell with
        | .fn f => (s.called f, E.result f (s.calls f))
        | .arr a => (s, a)
      let v := match o.device with
        | some d => E.move d v
        | none => v
      .ok (match o.policy with
        | .memoize => ({ s with cells := s.cells.set c (.arr v) }, v)
        | _ => (s, v))

/-- One operation; the value is the array a read returns. Accessing a position that holds no
object is not a program. -/
def step (E : Env A Dev) (s : State A Dev) : Op A Dev → Outcome (State A Dev × Option A)
  -- ndarray_deferred.hpp line 32: default constructor
  | .default => .ok ({ s with objs := s.objs ++ [⟨none, none, .memoize, s.created⟩],
                              created := s.created + 1 }, none)
  -- ndarray_deferred.cpp lines 9-16: an eager object calls the function at once
  | .ofFn .eager => .ok ({ s.called s.created with
      objs := s.objs ++ [⟨some s.cells.length, none, .eager, s.created⟩],
      cells := s.cells ++ [.arr (E.result s.created (s.calls s.created))],
      created := s.created + 1 }, none)
  | .ofFn p => .ok ({ s with
      objs := s.objs ++ [⟨some s.cells.length, none, p, s.created⟩],
      cells := s.cells ++ [.fn s.created],
      created := s.created + 1 }, none)
  -- ndarray_deferred.cpp lines 18-20: the policy keeps its default, memoize
  | .ofArr a => .ok ({ s with
      objs := s.objs ++ [⟨some s.cells.length, none, .memoize, s.created⟩],
      cells := s.cells ++ [.arr a],
      created := s.created + 1 }, none)
  -- implicit copy constructor: the cell is shared
  | .copy i => match s.objs[i]? with
    | none => .ub
    | some o => .ok ({ s with objs := s.objs ++ [o] }, none)
  -- ndarray_deferred.cpp lines 22-30: an array is moved into a new cell of this object; a copy of
  -- the object is returned
  | .toDev i d => match s.objs[i]? with
    | none => .ub
    | some o => match o.cell with
      | none => .ub
      | some c => match s.cells[c]? with
        | none => .ub
        | some (.arr a) =>
          let o' := { o with device := some d, cell := some s.cells.length }
          .ok ({ s with objs := s.objs.set i o' ++ [o'],
                        cells := s.cells ++ [.arr (E.move d a)] }, none)
        | some (.fn _) =>
          let o' := { o with device := some d }
          .ok ({ s with objs := s.objs.set i o' ++ [o'] }, none)
  -- ndarray_deferred.cpp lines 32-36: only the device is recorded; a copy is returned
  | .toStr i d => match s.objs[i]? with
    | none => .ub
    | some o =>
      let o' := { o with device := some d }
      .ok ({ s with objs := s.objs.set i o' ++ [o'] }, none)
  | .read i => match s.objs[i]? with
    | none => .ub
    | some o => match readObj E s o with
      | .ok (s', v) => .ok (s', some v)
      | .throws e => .throws e
      | .ub => .ub

/-- A history: the operations in order, with what each returned (latest first). -/
inductive Runs (E : Env A Dev) : List (Op A Dev × Option A) → State A Dev → Prop
  | nil : Runs E [] State.empty
  | cons {tr s op s' v} (h : Runs E tr s) (hs : step E s op = .ok (s', v)) :
      Runs E ((op, v) :: tr) s'

/-! ## Specification -/

/-- The operation creates an object afresh. -/
def Op.creates : Op A Dev → Bool
  | .default | .ofFn _ | .ofArr _ => true
  | _ => false

/-- The creating operations of a history, oldest first: the `f`-th one is creation number `f`. -/
def creations (tr : List (Op A Dev × Option A)) : List (Op A Dev) :=
  (tr.reverse.map Prod.fst).filter Op.creates

/-- Creation `f` of the history passed a function with policy `p`. -/
def MadeFn (tr : List (Op A Dev × Option A)) (f : Nat) (p : Policy) : Prop :=
  (creations tr)[f]? = some (.ofFn p)

/-- Creation `f` of the history passed the array `a`. -/
def MadeArr (tr : List (Op A Dev × Option A)) (f : Nat) (a : A) : Prop :=
  (creations tr)[f]? = some (.ofArr a)

/-- `b` is `a` after some device moves. -/
inductive Moved (E : Env A Dev) (a : A) : A → Prop
  | refl : Moved E a a
  | move (d : Dev) {b : A} (h : Moved E a b) : Moved E a (E.move d b)

/-- `b` on the device an object asks for, if it asks for one. -/
def onDevice (E : Env A Dev) : Option Dev → A → A
  | some d, b => E.move d b
  | none, b => b

/-! ## Invariant -/

/-- What holds of every object. -/
structure ObjOk (E : Env A Dev) (tr : List (Op A Dev × Option A)) (cells : List (Cell A))
    (o : Obj Dev) : Prop where
  src_lt : o.src < (creations tr).length
  cell_lt : ∀ c, o.cell = some c → c < cells.length
  fn : ∀ c f, o.cell = some c → cells[c]? = some (.fn f) → f = o.src ∧ MadeFn tr f o.policy
  pol : ∀ p, MadeFn tr o.src p → o.policy = p
  lazy : MadeFn tr o.src .lazy → ∃ c, o.cell = some c ∧ cells[c]? = some (.fn o.src)
  val : ∀ p, MadeFn tr o.src p → ∃ c x, o.cell = some c ∧ cells[c]? = some x ∧
    ∀ a, x = .arr a → Moved E (E.result o.src 0) a
  arr : ∀ a, MadeArr tr o.src a → ∃ c b, o.cell = some c ∧ cells[c]? = some (.arr b) ∧ Moved E a b

/-- What holds in every reachable state. -/
structure Inv (E : Env A Dev) (tr : List (Op A Dev × Option A)) (s : State A Dev) : Prop where
  created : (creations tr).length = s.created
  objs : ∀ o ∈ s.objs, ObjOk E tr s.cells o
  fn_pol : ∀ (c f : Nat), s.cells[c]? = some (.fn f) → MadeFn tr f .memoize ∨ MadeFn tr f .lazy
  fn_uniq : ∀ (c c' f : Nat), s.cells[c]? = some (.fn f) → s.cells[c']? = some (.fn f) → c = c'
  memo_fresh : ∀ (c f : Nat), s.cells[c]? = some (.fn f) → MadeFn tr f .memoize → s.calls f = 0
  later : ∀ f, s.created ≤ f → s.calls f = 0
  memo : ∀ f, MadeFn tr f .memoize → s.calls f ≤ 1
  eager : ∀ f, MadeFn tr f .eager → s.calls f = 1

theorem creations_cons (op : Op A Dev) (v : Option A) (tr : List (Op A Dev × Option A)) :
    creations ((op, v) :: tr) = creations tr ++ (if op.creates then [op] else []) := by
  simp only [creations, List.reverse_cons, List.map_append, List.filter_append, List.map_cons,
    List.map_nil]
  congr 1
  cases h : op.creates <;> simp [h]

theorem creations_other {op : Op A Dev} (h : op.creates = false) (v : Option A)
    (tr : List (Op A Dev × Option A)) : creations ((op, v) :: tr) = creations tr := by
  simp [creations_cons, h]

theorem creations_new {op : Op A Dev} (h : op.creates = true) (v : Option A)
    (tr : List (Op A Dev × Option A)) : creations ((op, v) :: tr) = creations tr ++ [op] := by
  simp [creations_cons, h]

theorem app_get {α : Type} {l : List α} {x y : α} {i : Nat} (h : (l ++ [x])[i]? = some y) :
    l[i]? = some y ∨ (i = l.length ∧ y = x) := by
  rcases lt_trichotomy i l.length with h1 | h1 | h1
  · left; rwa [List.getElem?_append_left h1] at h
  · right; subst h1; simp at h; exact ⟨rfl, h.symm⟩
  · rw [List.getElem?_append_right (by omega)] at h
    have : 1 ≤ i - l.length := by omega
    rw [List.getElem?_eq_none (by simpa using this)] at h; cases h

theorem get_app {α : Type} {l : List α} {y : α} {i : Nat} (x : α) (h : l[i]? = some y) :
    (l ++ [x])[i]? = some y := by
  rw [List.getElem?_append_left (List.getElem?_eq_some_iff.1 h).1]; exact h

theorem set_get {α : Type} {l : List α} {x y : α} {i c : Nat} (h : (l.set c x)[i]? = some y) :
    (i = c ∧ y = x) ∨ (i ≠ c ∧ l[i]? = some y) := by
  by_cases hi : i = c
  · left
    subst hi
    rw [List.getElem?_set_self'] at h
    cases hl : l[i]? <;> simp [hl] at h
    exact ⟨rfl, h.symm⟩
  · right; rw [List.getElem?_set_ne (Ne.symm hi)] at h; exact ⟨hi, h⟩

/-- The history knows the same creations. -/
theorem ObjOk.congr {E : Env A Dev} {tr tr' : List (Op A Dev × Option A)} {cells : List (Cell A)}
    {o : Obj Dev} (h : ObjOk E tr cells o) (hl : (creations tr).length ≤ (creations tr').length)
    (he : ∀ f, f < (creations tr).length → (creations tr')[f]? = (creations tr)[f]?) :
    ObjOk E tr' cells o := by
  have hs := he o.src h.src_lt
  refine ⟨lt_of_lt_of_le h.src_lt hl, h.cell_lt, ?_, ?_, ?_, ?_, ?_⟩
  · intro c f hc hf
    obtain ⟨rfl, hm⟩ := h.fn c f hc hf
    exact ⟨rfl, by unfold MadeFn at *; rw [hs]; exact hm⟩
  · intro p hp; unfold MadeFn at hp; rw [hs] at hp; exact h.pol p hp
  · intro hp; unfold MadeFn at hp; rw [hs] at hp; exact h.lazy hp
  · intro p hp; unfold MadeFn at hp; rw [hs] at hp; exact h.val p hp
  · intro a ha; unfold MadeArr at ha; rw [hs] at ha; exact h.arr a ha

/-- Adding a cell keeps objects in order. -/
theorem ObjOk.addCell {E : Env A Dev} {tr : List (Op A Dev × Option A)} {cells : List (Cell A)}
    {o : Obj Dev} (h : ObjOk E tr cells o) (x : Cell A) : ObjOk E tr (cells ++ [x]) o := by
  refine ⟨h.src_lt, ?_, ?_, h.pol, ?_, ?_, ?_⟩
  · intro c hc; have := h.cell_lt c hc; simp; omega
  · intro c f hc hf
    rcases app_get hf with h1 | ⟨rfl, _⟩
    · exact h.fn c f hc h1
    · exact absurd (h.cell_lt _ hc) (by omega)
  · intro hp
    obtain ⟨c, h1, h2⟩ := h.lazy hp
    exact ⟨c, h1, get_app x h2⟩
  · intro p hp
    obtain ⟨c, y, h1, h2, h3⟩ := h.val p hp
    exact ⟨c, y, h1, get_app x h2, h3⟩
  · intro a ha
    obtain ⟨c, b, h1, h2, h3⟩ := h.arr a ha
    exact ⟨c, b, h1, get_app x h2, h3⟩

/-- Recording a device keeps objects in order. -/
theorem ObjOk.withDevice {E : Env A Dev} {tr : List (Op A Dev × Option A)} {cells : List (Cell A)}
    {o : Obj Dev} (h : ObjOk E tr cells o) (d : Option Dev) :
    ObjOk E tr cells { o with device := d } :=
  ⟨h.src_lt, h.cell_lt, h.fn, h.pol, h.lazy, h.val, h.arr⟩

/-- `v` is a later version of what the cell stands for. -/
def Later (E : Env A Dev) (v : A) : Cell A → Prop
  | .fn f => Moved E (E.result f 0) v
  | .arr a => ∀ x, Moved E x a → Moved E x v

/-- Storing into cell `c` a later version of what it stands for keeps objects in order. -/
theorem ObjOk.store {E : Env A Dev} {tr : List (Op A Dev × Option A)} {cells : List (Cell A)}
    {o r : Obj Dev} (h : ObjOk E tr cells o) (hr : ObjOk E tr cells r) {c : Nat} {old : Cell A}
    {v : A} (hc : r.cell = some c) (hp : r.policy = .memoize) (hold : cells[c]? = some old)
    (hv : Later E v old) :
    ObjOk E tr (cells.set c (.arr v)) o := by
  have hlen : c < cells.length := (List.getElem?_eq_some_iff.1 hold).1
  have hset : (cells.set c (Cell.arr v))[c]? = some (.arr v) := by
    rw [List.getElem?_set_self hlen]
  refine ⟨h.src_lt, ?_, ?_, h.pol, ?_, ?_, ?_⟩
  · intro c' h'; rw [List.length_set]; exact h.cell_lt c' h'
  · intro c' f h' hf
    rcases set_get hf with ⟨_, h1⟩ | ⟨_, h1⟩
    · cases h1
    · exact h.fn c' f h' h1
  · intro hl
    obtain ⟨c', h1, h2⟩ := h.lazy hl
    by_cases hcc : c' = c
    · exfalso
      subst hcc
      have := (hr.fn c' o.src hc h2).2
      rw [hp] at this
      unfold MadeFn at this hl
      rw [this] at hl; cases hl
    · exact ⟨c', h1, by rw [List.getElem?_set_ne (Ne.symm hcc)]; exact h2⟩
  · intro p hpf
    obtain ⟨c', y, h1, h2, h3⟩ := h.val p hpf
    by_cases hcc : c' = c
    · subst hcc
      refine ⟨c', .arr v, h1, hset, ?_⟩
      rintro a ⟨⟩
      rw [h2] at hold; cases hold
      cases old with
      | fn f =>
        obtain ⟨rfl, _⟩ := h.fn c' f h1 h2
        exact hv
      | arr a => exact hv _ (h3 a rfl)
    · exact ⟨c', y, h1, by rw [List.getElem?_set_ne (Ne.symm hcc)]; exact h2, h3⟩
  · intro a ha
    obtain ⟨c', b, h1, h2, h3⟩ := h.arr a ha
    by_cases hcc : c' = c
    · subst hcc
      rw [h2] at hold; cases hold
      exact ⟨c', v, h1, hset, hv _ h3⟩
    · exact ⟨c', b, h1, by rw [List.getElem?_set_ne (Ne.symm hcc)]; exact h2, h3⟩

theorem onDevice_moved {E : Env A Dev} {x b : A} (d : Option Dev) (h : Moved E x b) :
    Moved E x (onDevice E d b) := by
  cases d with
  | none => exact h
  | some d => exact Moved.move d h

/-- State after looking into a cell. -/
def looked (s : State A Dev) : Cell A → State A Dev
  | .fn f => s.called f
  | .arr _ => s

/-- Value found in a cell. -/
def found (E : Env A Dev) (s : State A Dev) : Cell A → A
  | .fn f => E.result f (s.calls f)
  | .arr a => a

/-- Calls of function `g` made by looking into a cell. -/
def extra (g : Nat) : Cell A → Nat
  | .fn f => if g = f then 1 else 0
  | .arr _ => 0

/-- What a read does, by the content of the cell and the policy. -/
theorem readObj_eq {E : Env A Dev} {s : State A Dev} {o : Obj Dev} {c : Nat} {cell : Cell A}
    (hc : o.cell = some c) (hcell : s.cells[c]? = some cell) :
    readObj E s o = .ok (match o.policy with
      | .memoize => ({ looked s cell with
          cells := s.cells.set c (.arr (onDevice E o.device (found E s cell))) },
          onDevice E o.device (found E s cell))
      | _ => (looked s cell, onDevice E o.device (found E s cell))) := by
  simp only [readObj, hc, hcell]
  cases cell <;> cases hd : o.device <;> cases hp : o.policy <;> rfl

theorem made_lt {tr : List (Op A Dev × Option A)} {f : Nat} {p : Policy} (h : MadeFn tr f p) :
    f < (creations tr).length := (List.getElem?_eq_some_iff.1 h).1

theorem made_new {tr : List (Op A Dev × Option A)} {op : Op A Dev} {v : Option A} {f : Nat}
    {p : Policy} (hop : op.creates = true) (h : MadeFn ((op, v) :: tr) f p) :
    MadeFn tr f p ∨ (f = (creations tr).length ∧ op = .ofFn p) := by
  unfold MadeFn at *
  rw [creations_new hop] at h
  rcases app_get h with h1 | ⟨h1, h2⟩
  · exact Or.inl h1
  · exact Or.inr ⟨h1, h2.symm⟩

theorem made_old {tr : List (Op A Dev × Option A)} {op : Op A Dev} {v : Option A} {f : Nat}
    {p : Policy} (h : MadeFn tr f p) : MadeFn ((op, v) :: tr) f p := by
  unfold MadeFn at *
  cases hop : op.creates
  · rw [creations_other hop]; exact h
  · rw [creations_new hop]; exact get_app _ h

theorem ObjOk.cons {E : Env A Dev} {tr : List (Op A Dev × Option A)} {cells : List (Cell A)}
    {o : Obj Dev} (h : ObjOk E tr cells o) (op : Op A Dev) (v : Option A) :
    ObjOk E ((op, v) :: tr) cells o := by
  refine h.congr ?_ ?_
  · rw [creations_cons]; simp
  · intro f hf; rw [creations_cons, List.getElem?_append_left hf]

/-- Adding a creation that makes no function: the parts of the invariant about functions. -/
theorem made_nofn {tr : List (Op A Dev × Option A)} {op : Op A Dev} {v : Option A} {f : Nat}
    {p : Policy} (hop : ∀ p, op ≠ .ofFn p) (h : MadeFn ((op, v) :: tr) f p) : MadeFn tr f p := by
  cases hc : op.creates
  · unfold MadeFn at *; rwa [creations_other hc] at h
  · rcases made_new hc h with h | ⟨_, h⟩
    · exact h
    · exact absurd h (hop p)

theorem mem_objs {l : List (Obj Dev)} {i : Nat} {o o' x : Obj Dev} (ho : l[i]? = some o)
    (hx : x ∈ l.set i o' ++ [o']) : x ∈ l ∨ x = o' := by
  rcases List.mem_append.1 hx with h | h
  · exact List.mem_or_eq_of_mem_set h
  · right; simpa using h

/-- Operations that make no function, call none and add at most an array cell. -/
theorem Inv.quiet {E : Env A Dev} {tr : List (Op A Dev × Option A)} {s s' : State A Dev}
    {op : Op A Dev} {v : Option A} (h : Inv E tr s) (hop : ∀ p, op ≠ .ofFn p)
    (hcr : s'.created = s.created + (if op.creates then 1 else 0))
    (hcells : s'.cells = s.cells ∨ ∃ a, s'.cells = s.cells ++ [.arr a])
    (hcalls : s'.calls = s.calls)
    (hobjs : ∀ o ∈ s'.objs, ObjOk E ((op, v) :: tr) s'.cells o) : Inv E ((op, v) :: tr) s' := by
  have hfn : ∀ (c f : Nat), s'.cells[c]? = some (.fn f) → s.cells[c]? = some (.fn f) := by
    intro c f hc
    rcases hcells with e | ⟨a, e⟩
    · rwa [e] at hc
    · rw [e] at hc
      rcases app_get hc with h1 | ⟨_, h1⟩
      · exact h1
      · cases h1
  refine ⟨?_, hobjs, ?_, ?_, ?_, ?_, ?_, ?_⟩
  · rw [creations_cons, hcr, ← h.created]; split <;> simp
  · intro c f hc
    rcases h.fn_pol c f (hfn c f hc) with h1 | h1
    · exact Or.inl (made_old h1)
    · exact Or.inr (made_old h1)
  · intro c c' f hc hc'; exact h.fn_uniq c c' f (hfn c f hc) (hfn c' f hc')
  · intro c f hc hm; rw [hcalls]; exact h.memo_fresh c f (hfn c f hc) (made_nofn hop hm)
  · intro f hf; rw [hcalls]; exact h.later f (by rw [hcr] at hf; omega)
  · intro f hm; rw [hcalls]; exact h.memo f (made_nofn hop hm)
  · intro f hm; rw [hcalls]; exact h.eager f (made_nofn hop hm)

theorem creations_last {tr : List (Op A Dev × Option A)} {op : Op A Dev} {v : Option A}
    (hop : op.creates = true) :
    (creations ((op, v) :: tr))[(creations tr).length]? = some op := by
  rw [creations_new hop]; simp

theorem inv_step {E : Env A Dev} {tr : List (Op A Dev × Option A)} {s s' : State A Dev}
    {op : Op A Dev} {v : Option A} (h : Inv E tr s) (hs : step E s op = .ok (s', v)) :
    Inv E ((op, v) :: tr) s' := by
  cases op with
  | default =>
    simp only [step, Outcome.ok.injEq, Prod.mk.injEq] at hs
    obtain ⟨rfl, rfl⟩ := hs
    refine h.quiet (by simp) (by simp [Op.creates]) (Or.inl rfl) rfl ?_
    intro o ho
    rcases List.mem_append.1 ho with ho | ho
    · exact (h.objs o ho).cons _ _
    · simp only [List.mem_singleton] at ho
      subst ho
      have hlast := creations_last (tr := tr) (op := (Op.default : Op A Dev)) (v := none) rfl
      rw [h.created] at hlast
      refine ⟨?_, by simp, by simp, ?_, ?_, ?_, ?_⟩
      · rw [creations_new rfl]; simp [h.created]
      · intro p hp; unfold MadeFn at hp; simp only [hlast] at hp; cases hp
      · intro hp; unfold MadeFn at hp; simp only [hlast] at hp; cases hp
      · intro p hp; unfold MadeFn at hp; simp only [hlast] at hp; cases hp
      · intro p hp; unfold MadeArr at hp; simp only [hlast] at hp; cases hp
  | ofArr a =>
    simp only [step, Outcome.ok.injEq, Prod.mk.injEq] at hs
    obtain ⟨rfl, rfl⟩ := hs
    refine h.quiet (by simp) (by simp [Op.creates]) (Or.inr ⟨a, rfl⟩) rfl ?_
    intro o ho
    rcases List.mem_append.1 ho with ho | ho
    · exact ((h.objs o ho).cons _ _).addCell _
    · simp only [List.mem_singleton] at ho
      subst ho
      have hlast := creations_last (tr := tr) (op := (Op.ofArr a : Op A Dev)) (v := none) rfl
      rw [h.created] at hlast
      refine ⟨?_, by simp, fun c f hc hf => by cases hc; simp at hf, ?_, ?_, ?_, ?_⟩
      · rw [creations_new rfl]; simp [h.created]
      · intro p hp; unfold MadeFn at hp; simp only [hlast] at hp; cases hp
      · intro hp; unfold MadeFn at hp; simp only [hlast] at hp; cases hp
      · intro p hp; unfold MadeFn at hp; simp only [hlast] at hp; cases hp
      · intro b hb
        unfold MadeArr at hb
        simp only [hlast, Option.some.injEq, Op.ofArr.injEq] at hb
        subst hb
        exact ⟨_, _, rfl, by simp, Moved.refl⟩
  | copy i =>
    simp only [step] at hs
    cases ho : s.objs[i]? with
    | none => simp [ho] at hs
    | some o =>
      simp only [ho, Outcome.ok.injEq, Prod.mk.injEq] at hs
      obtain ⟨rfl, rfl⟩ := hs
      refine h.quiet (by simp) (by simp [Op.creates]) (Or.inl rfl) rfl ?_
      intro x hx
      rcases List.mem_append.1 hx with hx | hx
      · exact (h.objs x hx).cons _ _
      · simp only [List.mem_singleton] at hx
        subst hx
        exact (h.objs x (List.mem_of_getElem? ho)).cons _ _
  | toStr i d =>
    simp only [step] at hs
    cases ho : s.objs[i]? with
    | none => simp [ho] at hs
    | some o =>
      simp only [ho, Outcome.ok.injEq, Prod.mk.injEq] at hs
      obtain ⟨rfl, rfl⟩ := hs
      refine h.quiet (by simp) (by simp [Op.creates]) (Or.inl rfl) rfl ?_
      intro x hx
      rcases mem_objs ho hx with hx | rfl
      · exact (h.objs x hx).cons _ _
      · exact ((h.objs o (List.mem_of_getElem? ho)).cons _ _).withDevice _
  | toDev i d =>
    simp only [step] at hs
    cases ho : s.objs[i]? with
    | none => simp [ho] at hs
    | some o =>
      cases hc : o.cell with
      | none => simp [ho, hc] at hs
      | some c =>
        cases hx : s.cells[c]? with
        | none => simp [ho, hc, hx] at hs
        | some cell =>
          cases cell with
          | fn f =>
            simp only [ho, hc, hx, Outcome.ok.injEq, Prod.mk.injEq] at hs
            obtain ⟨rfl, rfl⟩ := hs
            refine h.quiet (by simp) (by simp [Op.creates]) (Or.inl rfl) rfl ?_
            intro x hx
            rcases mem_objs ho hx with hx | rfl
            · exact (h.objs x hx).cons _ _
            · have := ((h.objs o (List.mem_of_getElem? ho)).cons (.toDev i d) none).withDevice (some d)
              simpa [hc] using this
          | arr a =>
            simp only [ho, hc, hx, Outcome.ok.injEq, Prod.mk.injEq] at hs
            obtain ⟨rfl, rfl⟩ := hs
            refine h.quiet (by simp) (by simp [Op.creates]) (Or.inr ⟨_, rfl⟩) rfl ?_
            intro y hy
            rcases mem_objs ho hy with hy | rfl
            · exact ((h.objs y hy).cons _ _).addCell _
            · have ok := (h.objs o (List.mem_of_getElem? ho)).cons (.toDev i d) none
              refine ⟨ok.src_lt, by simp, fun c f hc hf => by cases hc; simp at hf, ok.pol, ?_, ?_, ?_⟩
              · intro hl
                obtain ⟨c', h1, h2⟩ := ok.lazy hl
                rw [hc] at h1; cases h1
                rw [hx] at h2; cases h2
              · intro p hp
                obtain ⟨c', y, h1, h2, h3⟩ := ok.val p hp
                rw [hc] at h1; cases h1
                rw [hx] at h2; cases h2
                refine ⟨_, _, rfl, by simp; rfl, ?_⟩
                rintro b ⟨⟩
                exact Moved.move d (h3 a rfl)
              · intro b hb
                obtain ⟨c', y, h1, h2, h3⟩ := ok.arr b hb
                rw [hc] at h1; cases h1
                rw [hx] at h2; cases h2
                exact ⟨_, _, rfl, by simp, Moved.move d h3⟩
  | ofFn p =>
    have hlast := creations_last (tr := tr) (op := (Op.ofFn p : Op A Dev)) (v := v) rfl
    rw [h.created] at hlast
    have hlen : (creations ((Op.ofFn p, v) :: tr)).length = s.created + 1 := by
      rw [creations_new rfl]; simp [h.created]
    cases p with
    | eager =>
      simp only [step, Outcome.ok.injEq, Prod.mk.injEq] at hs
      obtain ⟨rfl, rfl⟩ := hs
      have h0 : s.calls s.created = 0 := h.later _ (le_refl _)
      have hfn : ∀ (c f : Nat) a, (s.cells ++ [Cell.arr a])[c]? = some (.fn f) →
          s.cells[c]? = some (.fn f) := by
        intro c f a hc
        rcases app_get hc with h1 | ⟨_, h1⟩
        · exact h1
        · cases h1
      have hmade : ∀ f q, q ≠ Policy.eager → MadeFn ((Op.ofFn .eager, none) :: tr) f q →
          MadeFn tr f q := by
        intro f q hq hm
        rcases made_new rfl hm with h1 | ⟨_, h1⟩
        · exact h1
        · simp only [Op.ofFn.injEq] at h1; exact absurd h1.symm hq
      have hcalls : ∀ f, f < s.created → (s.called s.created).calls f = s.calls f := by
        intro f hf; simp [State.called, Nat.ne_of_lt hf]
      refine ⟨hlen, ?_, ?_, ?_, ?_, ?_, ?_, ?_⟩
      · intro o ho
        rcases List.mem_append.1 ho with ho | ho
        · exact ((h.objs o ho).cons _ _).addCell _
        · simp only [List.mem_singleton] at ho
          subst ho
          refine ⟨by simp [hlen], by simp, fun c f hc hf => by cases hc; simp at hf, ?_, ?_, ?_, ?_⟩
          · intro q hq; unfold MadeFn at hq; simp only [hlast] at hq; cases hq; rfl
          · intro hq; unfold MadeFn at hq; simp only [hlast] at hq; cases hq
          · intro q hq
            refine ⟨_, _, rfl, by simp; rfl, ?_⟩
            rintro a ⟨⟩
            rw [h0]; exact Moved.refl
          · intro b hb; unfold MadeArr at hb; simp only [hlast] at hb; cases hb
      · intro c f hc
        rcases h.fn_pol c f (hfn c f _ hc) with h1 | h1
        · exact Or.inl (made_old h1)
        · exact Or.inr (made_old h1)
      · intro c c' f hc hc'; exact h.fn_uniq c c' f (hfn c f _ hc) (hfn c' f _ hc')
      · intro c f hc hm
        have hm' := hmade f _ (by decide) hm
        have := made_lt hm'
        rw [h.created] at this
        show (s.called s.created).calls f = 0
        rw [hcalls f this]
        exact h.memo_fresh c f (hfn c f _ hc) hm'
      · intro f hf
        have hf' : s.created + 1 ≤ f := hf
        show (s.called s.created).calls f = 0
        simp only [State.called]
        rw [if_neg (by omega)]
        exact h.later f (by omega)
      · intro f hm
        have hm' := hmade f _ (by decide) hm
        have := made_lt hm'
        rw [h.created] at this
        show (s.called s.created).calls f ≤ 1
        rw [hcalls f this]
        exact h.memo f hm'
      · intro f hm
        show (s.called s.created).calls f = 1
        rcases made_new rfl hm with h1 | ⟨h1, _⟩
        · have := made_lt h1
          rw [h.created] at this
          rw [hcalls f this]
          exact h.eager f h1
        · rw [h.created] at h1
          subst h1
          simp [State.called, h0]
    | _ =>
      simp only [step, Outcome.ok.injEq, Prod.mk.injEq] at hs
      obtain ⟨rfl, rfl⟩ := hs
      refine ⟨hlen, ?_, ?_, ?_, ?_, ?_, ?_, ?_⟩
      · intro o ho
        rcases List.mem_append.1 ho with ho | ho
        · exact ((h.objs o ho).cons _ _).addCell _
        · simp only [List.mem_singleton] at ho
          subst ho
          refine ⟨by simp [hlen], by simp, ?_, ?_, ?_, ?_, ?_⟩
          · intro c f hc hf
            simp only [Option.some.injEq] at hc
            subst hc
            simp at hf
            subst hf
            exact ⟨rfl, hlast⟩
          · intro q hq; unfold MadeFn at hq; simp only [hlast] at hq; cases hq; rfl
          · intro _; exact ⟨_, rfl, by simp⟩
          · intro q hq
            exact ⟨_, _, rfl, by simp; rfl, by simp⟩
          · intro b hb; unfold MadeArr at hb; simp only [hlast] at hb; cases hb
      · intro c f hc
        rcases app_get hc with h1 | ⟨_, h1⟩
        · rcases h.fn_pol c f h1 with h1 | h1
          · exact Or.inl (made_old h1)
          · exact Or.inr (made_old h1)
        · cases h1
          first
          | exact Or.inl hlast
          | exact Or.inr hlast
      · intro c c' f hc hc'
        rcases app_get hc with h1 | ⟨h1, h2⟩ <;> rcases app_get hc' with h1' | ⟨h1', h2'⟩
        · exact h.fn_uniq c c' f h1 h1'
        · cases h2'
          rcases h.fn_pol c _ h1 with h3 | h3 <;>
          · have := made_lt h3; rw [h.created] at this; omega
        · cases h2
          rcases h.fn_pol c' _ h1' with h3 | h3 <;>
          · have := made_lt h3; rw [h.created] at this; omega
        · omega
      · intro c f hc hm
        rcases app_get hc with h1 | ⟨_, h1⟩
        · rcases made_new rfl hm with h3 | ⟨h3, _⟩
          · exact h.memo_fresh c f h1 h3
          · exact h.later f (by rw [h3, h.created])
        · cases h1; exact h.later _ (le_refl _)
      · intro f hf
        exact h.later f (by have : s.created + 1 ≤ f := hf; omega)
      · intro f hm
        rcases made_new rfl hm with h3 | ⟨h3, _⟩
        · exact h.memo f h3
        · have : s.calls f = 0 := h.later f (by rw [h3, h.created])
          show s.calls f ≤ 1
          omega
      · intro f hm
        rcases made_new rfl hm with h3 | ⟨_, h3⟩
        · exact h.eager f h3
        · cases h3
  | read i =>
    simp only [step] at hs
    cases ho : s.objs[i]? with
    | none => simp [ho] at hs
    | some o =>
      have ok := h.objs o (List.mem_of_getElem? ho)
      cases hc : o.cell with
      | none => simp [ho, readObj, hc] at hs
      | some c =>
        cases hx : s.cells[c]? with
        | none => simp [ho, readObj, hc, hx] at hs
        | some cell =>
          simp only [ho] at hs
          rw [readObj_eq hc hx] at hs
          have hcre : creations ((Op.read i, v) :: tr) = creations tr := creations_other rfl _ _
          have hmade : ∀ f q, MadeFn ((Op.read i, v) :: tr) f q ↔ MadeFn tr f q := by
            intro f q; unfold MadeFn; rw [hcre]
          -- the counters
          have hcall : ∀ g, (looked s cell).calls g =
              s.calls g + extra g cell := by
            intro g
            cases cell with
            | fn f => simp only [looked, extra, State.called]; split <;> rfl
            | arr a => rfl
          have hcre' : (looked s cell).created = s.created ∧ (looked s cell).objs = s.objs ∧ (looked s cell).cells = s.cells := by
            cases cell <;> exact ⟨rfl, rfl, rfl⟩
          obtain ⟨e1, e2, e3⟩ := hcre'
          generalize (looked s cell) = s1 at hs hcall e1 e2 e3
          have hbase : ∀ f, s1.created ≤ f → s1.calls f = 0 := by
            intro f hf
            rw [hcall f]
            have := h.later f (by omega)
            cases cell with
            | arr a => simpa [extra] using this
            | fn f' =>
              have hlt : f' < s.created := by
                rcases h.fn_pol c f' hx with h1 | h1 <;>
                · have := made_lt h1; rw [h.created] at this; exact this
              simp only [extra]
              rw [if_neg (by omega)]; omega
          have heager : ∀ f, MadeFn tr f .eager → s1.calls f = 1 := by
            intro f hm
            rw [hcall f, h.eager f hm]
            cases cell with
            | arr a => rfl
            | fn f' =>
              simp only [extra]
              rw [if_neg]
              rintro rfl
              unfold MadeFn at hm
              rcases h.fn_pol c _ hx with h1 | h1 <;>
              · unfold MadeFn at h1; rw [hm] at h1; cases h1
          by_cases hp : o.policy = .memoize
          · rw [hp] at hs
            simp only [Outcome.ok.injEq, Prod.mk.injEq] at hs
            obtain ⟨rfl, rfl⟩ := hs
            have hfn : ∀ c' f w, (s.cells.set c (Cell.arr w))[c']? = some (.fn f) →
                c' ≠ c ∧ s.cells[c']? = some (.fn f) := by
              intro c' f w hc'
              rcases set_get hc' with ⟨_, h1⟩ | h1
              · cases h1
              · exact h1
            refine ⟨?_, ?_, ?_, ?_, ?_, ?_, ?_, ?_⟩
            · rw [hcre]; show _ = s1.created; rw [e1]; exact h.created
            · intro x hx'
              rw [e2] at hx'
              refine ((h.objs x hx').cons _ _).store (ok.cons _ _) hc hp hx ?_
              cases cell with
              | fn f =>
                have hm := (ok.fn c f hc hx).2
                rw [hp] at hm
                simp only [Later, found, h.memo_fresh c f hx hm]
                exact onDevice_moved _ Moved.refl
              | arr a =>
                intro x hx
                exact onDevice_moved _ hx
            · intro c' f hc'
              rcases h.fn_pol c' f (hfn c' f _ hc').2 with h1 | h1
              · exact Or.inl (made_old h1)
              · exact Or.inr (made_old h1)
            · intro c1 c2 f h1 h2
              exact h.fn_uniq c1 c2 f (hfn c1 f _ h1).2 (hfn c2 f _ h2).2
            · intro c' f hc' hm
              rw [hmade] at hm
              obtain ⟨hne, hf⟩ := hfn c' f _ hc'
              show s1.calls f = 0
              rw [hcall f, h.memo_fresh c' f hf hm]
              cases cell with
              | arr a => rfl
              | fn f' =>
                simp only [extra]
                rw [if_neg]
                rintro rfl
                exact hne (h.fn_uniq c' c _ hf hx)
            · exact hbase
            · intro f hm
              rw [hmade] at hm
              show s1.calls f ≤ 1
              rw [hcall f]
              cases cell with
              | arr a => simpa [extra] using h.memo f hm
              | fn f' =>
                simp only [extra]
                split
                · rename_i hff; subst hff
                  rw [h.memo_fresh c f hx hm]
                · simpa using h.memo f hm
            · intro f hm; rw [hmade] at hm; exact heager f hm
          · have hs' : s' = s1 := by
              cases hpo : o.policy with
              | memoize => exact absurd hpo hp
              | lazy => rw [hpo] at hs; simp only [Outcome.ok.injEq, Prod.mk.injEq] at hs; exact hs.1.symm
              | eager => rw [hpo] at hs; simp only [Outcome.ok.injEq, Prod.mk.injEq] at hs; exact hs.1.symm
            subst hs'
            refine ⟨by rw [hcre, e1]; exact h.created, ?_, ?_, ?_, ?_, hbase, ?_, ?_⟩
            · intro x hx'
              rw [e2] at hx'; rw [e3]
              exact (h.objs x hx').cons _ _
            · intro c' f hc'
              rw [e3] at hc'
              rcases h.fn_pol c' f hc' with h1 | h1
              · exact Or.inl (made_old h1)
              · exact Or.inr (made_old h1)
            · intro c1 c2 f h1 h2
              rw [e3] at h1 h2
              exact h.fn_uniq c1 c2 f h1 h2
            · intro c' f hc' hm
              rw [e3] at hc'
              rw [hmade] at hm
              rw [hcall f, h.memo_fresh c' f hc' hm]
              cases cell with
              | arr a => rfl
              | fn f' =>
                simp only [extra]
                rw [if_neg]
                rintro rfl
                have h1 := (ok.fn c _ hc hx).2
                unfold MadeFn at h1 hm
                rw [h1] at hm
                simp only [Option.some.injEq, Op.ofFn.injEq] at hm
                exact hp hm
            · intro f hm
              rw [hmade] at hm
              rw [hcall f]
              cases cell with
              | arr a => simpa [extra] using h.memo f hm
              | fn f' =>
                simp only [extra]
                rw [if_neg]
                · simpa using h.memo f hm
                rintro rfl
                have h1 := (ok.fn c _ hc hx).2
                unfold MadeFn at h1 hm
                rw [h1] at hm
                simp only [Option.some.injEq, Op.ofFn.injEq] at hm
                exact hp hm
            · intro f hm; rw [hmade] at hm; exact heager f hm

theorem inv_runs {E : Env A Dev} {tr : List (Op A Dev × Option A)} {s : State A Dev}
    (h : Runs E tr s) : Inv E tr s := by
  induction h with
  | nil =>
    exact ⟨rfl, by simp [State.empty], by simp [State.empty], by simp [State.empty],
      by simp [State.empty], fun _ _ => rfl, fun f hm => by simp [State.empty],
      fun f hm => by simp [MadeFn, creations] at hm⟩
  | cons _ hs ih => exact inv_step ih hs

/-! ## The property -/

/-- **C57**, memoize: in every history, however many copies are made, moved and read, the function
is called at most once. -/
theorem C57_memoize_at_most_once {E : Env A Dev} {tr : List (Op A Dev × Option A)}
    {s : State A Dev} (h : Runs E tr s) {f : Nat} (hf : MadeFn tr f .memoize) : s.calls f ≤ 1 :=
  (inv_runs h).memo f hf

/-- **C57**, eager: in every history the function has been called exactly once. -/
theorem C57_eager_exactly_once {E : Env A Dev} {tr : List (Op A Dev × Option A)}
    {s : State A Dev} (h : Runs E tr s) {f : Nat} (hf : MadeFn tr f .eager) : s.calls f = 1 :=
  (inv_runs h).eager f hf

/-- … namely at creation. -/
theorem C57_eager_at_creation {E : Env A Dev} {tr : List (Op A Dev × Option A)}
    {s s' : State A Dev} (h : Runs E tr s) {v : Option A}
    (hs : step E s (.ofFn .eager) = .ok (s', v)) :
    s.calls s.created = 0 ∧ s'.calls s.created = 1 := by
  have h0 := (inv_runs h).later s.created (le_refl _)
  refine ⟨h0, (inv_runs (Runs.cons h hs)).eager _ ?_⟩
  have := creations_last (tr := tr) (op := (Op.ofFn .eager : Op A Dev)) (v := v) rfl
  rw [(inv_runs h).created] at this
  exact this

/-- The operation reads an object that descends from creation `f`. -/
def ReadsOf (s : State A Dev) (op : Op A Dev) (f : Nat) : Prop :=
  ∃ i o, op = .read i ∧ s.objs[i]? = some o ∧ o.src = f

/-- **C57**, lazy: each read of the object or of any of its copies calls the function once, and
nothing else does. -/
theorem C57_lazy_once_per_read {E : Env A Dev} {tr : List (Op A Dev × Option A)}
    {s s' : State A Dev} (h : Runs E tr s) {op : Op A Dev} {v : Option A}
    (hs : step E s op = .ok (s', v)) {f : Nat} (hf : MadeFn tr f .lazy) :
    (ReadsOf s op f → s'.calls f = s.calls f + 1) ∧ (¬ ReadsOf s op f → s'.calls f = s.calls f) := by
  have inv := inv_runs h
  have hlt : f < s.created := by rw [← inv.created]; exact made_lt hf
  cases op with
  | read i =>
    simp only [step] at hs
    cases ho : s.objs[i]? with
    | none => simp [ho] at hs
    | some o =>
      have ok := inv.objs o (List.mem_of_getElem? ho)
      cases hc : o.cell with
      | none => simp [ho, readObj, hc] at hs
      | some c =>
        cases hx : s.cells[c]? with
        | none => simp [ho, readObj, hc, hx] at hs
        | some cell =>
          simp only [ho] at hs
          rw [readObj_eq hc hx] at hs
          have hcalls : s'.calls f = s.calls f + extra f cell := by
            cases hp : o.policy <;> rw [hp] at hs <;>
              simp only [Outcome.ok.injEq, Prod.mk.injEq] at hs <;>
              rw [← hs.1] <;> cases cell <;> simp [looked, extra, State.called] <;> split <;> rfl
          constructor
          · rintro ⟨i', o', h1, h2, h3⟩
            cases h1
            rw [ho] at h2; cases h2
            obtain ⟨c', e1, e2⟩ := ok.lazy (by rw [h3]; exact hf)
            rw [hc] at e1; cases e1
            rw [hx] at e2; cases e2
            rw [hcalls]; simp [extra, h3]
          · intro hn
            rw [hcalls]
            cases cell with
            | arr a => rfl
            | fn g =>
              simp only [extra]
              rw [if_neg (fun hfg => ?_), Nat.add_zero]
              subst hfg
              exact hn ⟨i, o, rfl, ho, (ok.fn c f hc hx).1.symm⟩
  | ofFn p =>
    refine ⟨fun ⟨_, _, h, _⟩ => by (cases h), fun _ => ?_⟩
    cases p <;> simp only [step, Outcome.ok.injEq, Prod.mk.injEq] at hs <;> obtain ⟨rfl, _⟩ := hs
    · rfl
    · rfl
    · simp only [State.called]; rw [if_neg (by omega)]
  | default =>
    refine ⟨fun ⟨_, _, h, _⟩ => by (cases h), fun _ => ?_⟩
    simp only [step, Outcome.ok.injEq, Prod.mk.injEq] at hs
    obtain ⟨rfl, _⟩ := hs; rfl
  | ofArr a =>
    refine ⟨fun ⟨_, _, h, _⟩ => by (cases h), fun _ => ?_⟩
    simp only [step, Outcome.ok.injEq, Prod.mk.injEq] at hs
    obtain ⟨rfl, _⟩ := hs; rfl
  | copy i =>
    refine ⟨fun ⟨_, _, h, _⟩ => by (cases h), fun _ => ?_⟩
    simp only [step] at hs
    split at hs
    · cases hs
    · simp only [Outcome.ok.injEq, Prod.mk.injEq] at hs
      obtain ⟨rfl, _⟩ := hs; rfl
  | toStr i d =>
    refine ⟨fun ⟨_, _, h, _⟩ => by (cases h), fun _ => ?_⟩
    simp only [step] at hs
    split at hs
    · cases hs
    · simp only [Outcome.ok.injEq, Prod.mk.injEq] at hs
      obtain ⟨rfl, _⟩ := hs; rfl
  | toDev i d =>
    refine ⟨fun ⟨_, _, h, _⟩ => by (cases h), fun _ => ?_⟩
    simp only [step] at hs
    split at hs
    · cases hs
    · split at hs
      · cases hs
      · split at hs
        · cases hs
        · simp only [Outcome.ok.injEq, Prod.mk.injEq] at hs
          obtain ⟨rfl, _⟩ := hs; rfl
        · simp only [Outcome.ok.injEq, Prod.mk.injEq] at hs
          obtain ⟨rfl, _⟩ := hs; rfl

/-- **C57**, lazy values: a read returns what the function returns at this call, on the device the
object asks for. -/
theorem C57_lazy_value {E : Env A Dev} {tr : List (Op A Dev × Option A)} {s : State A Dev}
    (h : Runs E tr s) {i : Nat} {o : Obj Dev} (ho : s.objs[i]? = some o)
    (hf : MadeFn tr o.src .lazy) :
    ∃ s', step E s (.read i) = .ok (s', some (onDevice E o.device (E.result o.src (s.calls o.src)))) := by
  have ok := (inv_runs h).objs o (List.mem_of_getElem? ho)
  obtain ⟨c, e1, e2⟩ := ok.lazy hf
  have hp := ok.pol _ hf
  refine ⟨s.called o.src, ?_⟩
  simp only [step, ho]
  rw [readObj_eq e1 e2, hp]
  rfl

/-- **C57**, memoize and eager values: a read returns what the function returned at its first call,
after some device moves, the last of which is to the device the object asks for, if it asks for
one. -/
theorem C57_value {E : Env A Dev} {tr : List (Op A Dev × Option A)} {s : State A Dev}
    (h : Runs E tr s) {i : Nat} {o : Obj Dev} (ho : s.objs[i]? = some o) {p : Policy}
    (hf : MadeFn tr o.src p) (hp : p ≠ .lazy) :
    ∃ s' b, Moved E (E.result o.src 0) b ∧
      step E s (.read i) = .ok (s', some (onDevice E o.device b)) := by
  have inv := inv_runs h
  have ok := inv.objs o (List.mem_of_getElem? ho)
  obtain ⟨c, x, e1, e2, e3⟩ := ok.val p hf
  have hpol := ok.pol _ hf
  have hb : ∃ b, Moved E (E.result o.src 0) b ∧ b = found E s x := by
    cases x with
    | arr a => exact ⟨a, e3 a rfl, rfl⟩
    | fn f =>
      obtain ⟨rfl, hm⟩ := ok.fn c f e1 e2
      rcases inv.fn_pol c _ e2 with h1 | h1
      · exact ⟨_, Moved.refl, by simp only [found, inv.memo_fresh c _ e2 h1]⟩
      · unfold MadeFn at hf h1
        rw [hf] at h1
        simp only [Option.some.injEq, Op.ofFn.injEq] at h1
        exact absurd h1 hp
  obtain ⟨b, hb1, hb2⟩ := hb
  simp only [step, ho]
  rw [readObj_eq e1 e2, ← hb2]
  cases o.policy <;> exact ⟨_, b, hb1, rfl⟩

/-- Moving to a device forgets where the array was before. -/
def MoveLast (E : Env A Dev) : Prop := ∀ d d' a, E.move d (E.move d' a) = E.move d a

theorem moved_cases {E : Env A Dev} (hE : MoveLast E) {a b : A} (h : Moved E a b) :
    b = a ∨ ∃ d, b = E.move d a := by
  induction h with
  | refl => exact Or.inl rfl
  | move d _ ih =>
    rcases ih with rfl | ⟨d', rfl⟩
    · exact Or.inr ⟨d, rfl⟩
    · exact Or.inr ⟨d, hE d d' a⟩

/-- **C57**, values of objects that ask for a device: every read of a memoizing or eager object
returns the function's value moved to the requested device. Missing: objects that ask for no
device (`C57_copy_moves_original`). -/
theorem C57_value_on_device_partial {E : Env A Dev} (hE : MoveLast E)
    {tr : List (Op A Dev × Option A)} {s : State A Dev} (h : Runs E tr s) {i : Nat} {o : Obj Dev}
    (ho : s.objs[i]? = some o) {p : Policy} (hf : MadeFn tr o.src p) (hp : p ≠ .lazy) {d : Dev}
    (hd : o.device = some d) :
    ∃ s', step E s (.read i) = .ok (s', some (E.move d (E.result o.src 0))) := by
  obtain ⟨s', b, hb, hs⟩ := C57_value h ho hf hp
  refine ⟨s', ?_⟩
  rw [hs, hd]
  simp only [onDevice]
  rcases moved_cases hE hb with rfl | ⟨d', rfl⟩
  · rfl
  · rw [hE]

/-- Arrays wrapped as deferred arrays are returned as given, up to device moves. -/
theorem C57_wrapped_array {E : Env A Dev} {tr : List (Op A Dev × Option A)} {s : State A Dev}
    (h : Runs E tr s) {i : Nat} {o : Obj Dev} (ho : s.objs[i]? = some o) {a : A}
    (hf : MadeArr tr o.src a) :
    ∃ s' b, Moved E a b ∧ step E s (.read i) = .ok (s', some (onDevice E o.device b)) := by
  have ok := (inv_runs h).objs o (List.mem_of_getElem? ho)
  obtain ⟨c, b, e1, e2, e3⟩ := ok.arr a hf
  simp only [step, ho]
  rw [readObj_eq e1 e2]
  cases o.policy <;> exact ⟨_, b, e3, rfl⟩

/-- Arrays for the concrete cases: a value and the device it is on (0 is the CPU). -/
def exEnv : Env (Nat × Nat) Nat where
  result := fun f k => (100 * f + k, 0)
  move := fun d a => (a.1, d)

/-- A state reached by a list of operations, with the values read. -/
def exec (E : Env A Dev) : List (Op A Dev) → State A Dev → Outcome (State A Dev × List (Option A))
  | [], s => .ok (s, [])
  | op :: ops, s => do
    let (s, v) ← step E s op
    let (s, vs) ← exec E ops s
    pure (s, v :: vs)

theorem runs_exec {E : Env A Dev} : ∀ (ops : List (Op A Dev)) {tr : List (Op A Dev × Option A)}
    {s s' : State A Dev} {vs : List (Option A)}, Runs E tr s → exec E ops s = .ok (s', vs) →
    Runs E ((ops.zip vs).reverse ++ tr) s' ∧ ops.length = vs.length
  | [], tr, s, s', vs, h, he => by
    simp only [exec, Outcome.ok.injEq, Prod.mk.injEq] at he
    obtain ⟨rfl, rfl⟩ := he
    exact ⟨h, rfl⟩
  | op :: ops, tr, s, s', vs, h, he => by
    simp only [exec] at he
    cases hs : step E s op with
    | ok r =>
      obtain ⟨s1, v⟩ := r
      rw [hs] at he
      simp only [Outcome.bind_ok] at he
      cases h2 : exec E ops s1 with
      | ok r2 =>
        obtain ⟨s2, vs2⟩ := r2
        rw [h2] at he
        simp only [Outcome.bind_ok, Outcome.pure_eq, Outcome.ok.injEq, Prod.mk.injEq] at he
        obtain ⟨rfl, rfl⟩ := he
        obtain ⟨h3, h4⟩ := runs_exec ops (Runs.cons h hs) h2
        exact ⟨by simpa using h3, by simp [h4]⟩
      | throws e => rw [h2] at he; cases he
      | ub => rw [h2] at he; cases he
    | throws e => rw [hs] at he; cases he
    | ub => rw [hs] at he; cases he

/-- **C57** fails for objects that ask for no device: after a copy has been sent to device 1 and
read, the original, which nobody moved, is on device 1 too. -/
theorem C57_copy_moves_original :
    (exec exEnv [.ofFn .memoize, .copy 0, .toStr 1 1, .read 1, .read 0] State.empty).bind
      (fun r => .ok r.2) = .ok [none, none, none, some (0, 1), some (0, 1)] := by decide

/-- A default-constructed object must not be read: it holds a null pointer. -/
theorem C57_default_read_ub :
    (exec exEnv [.default, .read 0] State.empty).bind (fun r => .ok r.2) = .ub := by decide

/-- Concrete case for the theorems above: a history with a memoizing, a lazy and an eager object,
copies, moves and reads; the calls counted. -/
example : (exec exEnv [.ofFn .memoize, .ofFn .lazy, .ofFn .eager, .copy 0, .toDev 1 2, .read 0,
    .read 3, .read 1, .read 4, .read 2, .read 2] State.empty).bind
      (fun r => .ok (r.2, [r.1.calls 0, r.1.calls 1, r.1.calls 2])) =
    .ok ([none, none, none, none, none, some (0, 0), some (0, 0), some (100, 2), some (101, 2),
      some (200, 0), some (200, 0)], [1, 2, 1]) := by decide

/-- … and the policies are those of the history. -/
example : MadeFn [((Op.ofFn .lazy : Op (Nat × Nat) Nat), none), (.ofFn .memoize, none)] 1 .lazy := rfl

end Bliss.Deferred
