import Verif.Misc.Move
import Verif.Misc.Types

/-!
# Printing an array, size along an axis (C120, C121)

Models `pretty_print`, `ndarray::repr` and `ndarray::size` (bland/bland/ndarray.cpp lines 183-189,
272-415).
-/

namespace Bliss.Repr

open Nd Device Move Types

variable {V : Type}

/-! ## Model -/

/-- The increment of the index (ndarray.cpp lines 333-342), from the last dimension to the first: the
new index, how many line breaks are printed and whether every dimension started over. -/
def advance : List Int → List Int → List Int × Nat × Bool
  | s :: ss, i :: is =>
    let r := advance ss is
    if r.2.2 then
      if i + 1 = s then (0 :: r.1, r.2.1 + 1, true) else ((i + 1) :: r.1, r.2.1, false)
    else (i :: r.1, r.2.1, false)
  | _, _ => ([], 0, true)

/-- The position of the element (ndarray.cpp lines 326-329). The remainder by a size of 0 is
undefined. -/
def position : List Dim → List Int → Outcome Int
  | d :: ds, i :: is =>
    if d.size = 0 then .ub
    else do
      let r ← position ds is
      pure (d.offset + i.tmod d.size * d.stride + r)
  | _, _ => .ok 0

/-- One turn of the loop (ndarray.cpp lines 324-343): `put` prints an element. -/
def printOne (put : V → List Char) (h : Heap V) (a : Arr) (st : List Int × List Char) :
    Outcome (List Int × List Char) := do
  let p ← position a.dims st.1
  let v ← h.load a.blk p
  let r := advance a.shape st.1
  pure (r.1, st.2 ++ put v ++ [' '] ++ List.replicate r.2.1 '\n')

/-- `dev_pp` (ndarray.cpp lines 303-315); `num` prints an integer. -/
def devName (num : Int → List Char) (d : Dev) : List Char :=
  match d.kind with
  | .cpu => "cpu:".toList ++ num d.id
  | .cuda => "cuda:".toList ++ num d.id
  | .cudaManaged => "cuda_managed:".toList ++ num d.id
  | .cudaHost => "cuda_host:".toList ++ num d.id

/-- `dtype_pp` (ndarray.cpp lines 277-302), and which widths `repr` knows (lines 348-415). Left out:
complex numbers. -/
def typeName (d : Dtype) : Outcome (List Char) :=
  match d.code, d.bits with
  | .float, 32 => .ok "float32".toList
  | .float, 64 => .ok "float64".toList
  | .int, 8 => .ok "int8_t".toList
  | .int, 16 => .ok "int16_t".toList
  | .int, 32 => .ok "int32_t".toList
  | .int, 64 => .ok "int64_t".toList
  | .uint, 8 => .ok "uint8_t".toList
  | .uint, 16 => .ok "uint16_t".toList
  | .uint, 32 => .ok "uint32_t".toList
  | .uint, 64 => .ok "uint64_t".toList
  | _, _ => .throws .runtimeError

/-- The first line (ndarray.cpp line 317); `list` prints a list of integers. -/
def header (num : Int → List Char) (list : List Int → List Char) (a : Arr) (name : List Char)
    (dev : Dev) : List Char :=
  "bland shape ".toList ++ list a.shape ++ " with dtype ".toList ++ name ++ " on device ".toList ++
    devName num dev ++ ":\n".toList

/-- `ndarray::repr` (ndarray.cpp lines 272-415). -/
def repr (B : Build) (num : Int → List Char) (list : List Int → List Char) (put : V → List Char)
    (ty : Dtype) (dev : Dev) (a : Arr) (junk : Int → V) (h : Heap V) : Outcome (List Char) := do
  let name ← typeName ty
  let (h1, c) ← moveTo B h a dev ⟨.cpu, 0⟩ junk
  let r ← forLoop (min c.numel 25).toNat (fun _ st => printOne put h1 c st)
    (c.dims.map fun _ => 0, header num list a name dev)
  pure r.2

/-- `ndarray::size` (ndarray.cpp lines 183-189): only the upper end of the range is checked; a
negative axis reads in front of the shape. -/
def size (a : Arr) (axis : Int) : Outcome Int :=
  if axis < a.dims.length then
    if axis < 0 then .ub
    else match a.shape[axis.toNat]? with
      | some s => .ok s
      | none => .ub
  else .throws .invalidArgument

/-! ## Specification -/

/-- The text of an array of `shape` with elements `A`, as elements (`some`) and line breaks (`none`):
an array without dimensions is its element; otherwise the subarrays follow each other and a line
break ends the whole. -/
def layout : List Nat → (List Int → V) → List (Option V)
  | [], A => [some (A [])]
  | s :: ss, A => ((List.range s).flatMap fun i : Nat => layout ss fun is => A ((i : Int) :: is)) ++ [none]

/-- The beginning of a text with at most `n` elements. -/
def firstElements : Nat → List (Option V) → List (Option V)
  | _, [] => []
  | n, none :: r => none :: firstElements n r
  | 0, some _ :: _ => []
  | n + 1, some v :: r => some v :: firstElements n r

/-- An element is followed by a blank. -/
def text (put : V → List Char) (l : List (Option V)) : List Char :=
  l.flatMap fun x => match x with
    | some v => put v ++ [' ']
    | none => ['\n']

/-! ## Proofs -/

/-- What `n` turns print, starting at an index. -/
def run (shape : List Int) (A : List Int → V) : Nat → List Int → List (Option V)
  | 0, _ => []
  | n + 1, idx =>
    some (A idx) :: (List.replicate (advance shape idx).2.1 none ++ run shape A n (advance shape idx).1)

theorem advance_append {pre p : List Int} (hp : pre.length = p.length) (s i : Int) :
    advance (pre ++ [s]) (p ++ [i]) =
      if i + 1 = s then ((advance pre p).1 ++ [0], (advance pre p).2.1 + 1, (advance pre p).2.2)
      else (p ++ [i + 1], 0, false) := by
  induction pre generalizing p with
  | nil =>
    cases p with
    | nil => simp [advance]
    | cons a p => simp at hp
  | cons a pre ih =>
    cases p with
    | nil => simp at hp
    | cons b p =>
      simp only [List.cons_append, advance, ih (by simpa using hp)]
      by_cases h : i + 1 = s
      · simp only [h, if_true]
        cases (advance pre p).2.2
        · simp
        · by_cases hb : b + 1 = a <;> simp [hb]
      · simp [h]

theorem advance_length {shape idx : List Int} (h : shape.length = idx.length) :
    (advance shape idx).1.length = idx.length := by
  induction shape generalizing idx with
  | nil => cases idx with
    | nil => rfl
    | cons a p => simp at h
  | cons s ss ih =>
    cases idx with
    | nil => simp at h
    | cons i is =>
      have := ih (idx := is) (by simpa using h)
      simp only [advance]
      split <;> (try split) <;> simp [this]

theorem run_block (A : List Int → V) (ss : List Nat) (hs : ∀ s ∈ ss, 0 < s) (pre p : List Int)
    (hp : pre.length = p.length) (m : Nat) :
    run (pre ++ ss.map Int.ofNat) A (ss.prod + m) (p ++ ss.map fun _ => 0) =
      layout ss (fun is => A (p ++ is)) ++ List.replicate (advance pre p).2.1 none ++
        run (pre ++ ss.map Int.ofNat) A m ((advance pre p).1 ++ ss.map fun _ => 0) := by
  induction ss generalizing pre p m with
  | nil => simp [layout, Nat.add_comm 1 m, run]
  | cons s ss ih =>
    have hs0 : 0 < s := hs s (by simp)
    have ih := ih fun x hx => hs x (by simp [hx])
    have key : ∀ k, k < s → run (pre ++ Int.ofNat s :: ss.map Int.ofNat) A ((k + 1) * ss.prod + m)
          (p ++ ((s - (k + 1) : Nat) : Int) :: ss.map fun _ => 0) =
        ((List.range (k + 1)).flatMap fun i : Nat => layout ss fun is =>
            A (p ++ ((s - (k + 1) + i : Nat) : Int) :: is)) ++ none ::
          List.replicate (advance pre p).2.1 none ++
          run (pre ++ Int.ofNat s :: ss.map Int.ofNat) A m
            ((advance pre p).1 ++ 0 :: ss.map fun _ => 0) := by
      intro k
      induction k with
      | zero =>
        intro hk
        have e := ih (pre ++ [Int.ofNat s]) (p ++ [((s - 1 : Nat) : Int)]) (by simp [hp]) m
        rw [advance_append hp, if_pos (by show ((s - 1 : Nat) : Int) + 1 = (s : Int); omega)] at e
        simpa [List.append_assoc, List.replicate_succ] using e
      | succ k ihk =>
        intro hk
        have e := ih (pre ++ [Int.ofNat s]) (p ++ [((s - (k + 2) : Nat) : Int)]) (by simp [hp])
          ((k + 1) * ss.prod + m)
        rw [advance_append hp, if_neg (by show ¬ ((s - (k + 2) : Nat) : Int) + 1 = (s : Int); omega)] at e
        have e0 : ((s - (k + 2) : Nat) : Int) + 1 = ((s - (k + 1) : Nat) : Int) := by omega
        simp only [List.append_assoc, List.singleton_append, e0] at e
        rw [ihk (by omega)] at e
        rw [show (k + 1 + 1) * ss.prod + m = ss.prod + ((k + 1) * ss.prod + m) by ring]
        rw [e, List.range_succ_eq_map (n := k + 1)]
        simp only [List.flatMap_cons, List.flatMap_map, List.replicate_zero, List.nil_append,
          List.append_assoc, Nat.add_zero, List.cons_append]
        congr 2
        refine congrArg (List.flatMap · _) ?_
        funext i
        rw [show s - (k + 1) + i = s - (k + 1 + 1) + Nat.succ i by omega]
    have hk := key (s - 1) (by omega)
    rw [show s - 1 + 1 = s by omega] at hk
    simp only [List.map_cons, List.prod_cons, layout]
    rw [Nat.sub_self] at hk
    simp only [Nat.cast_zero, Nat.zero_add] at hk
    rw [hk]
    simp

theorem run_first (shape : List Int) (A : List Int → V) (k m : Nat) (idx : List Int) :
    run shape A k idx = firstElements k (run shape A (k + m) idx) := by
  have hrep : ∀ (n j : Nat) (r : List (Option V)), firstElements n (List.replicate j none ++ r) =
      List.replicate j none ++ firstElements n r := by
    intro n j r
    induction j with
    | zero => rfl
    | succ j ih => simp [List.replicate_succ, firstElements, ih]
  induction k generalizing idx with
  | zero =>
    cases m with
    | zero => simp [run, firstElements]
    | succ m => simp [run, firstElements]
  | succ k ih =>
    rw [Nat.add_right_comm]
    simp only [run, firstElements, hrep]
    rw [← ih]

theorem advance_valid {shape idx : List Int} (h : ValidIdx shape idx) :
    ValidIdx shape (advance shape idx).1 := by
  induction shape generalizing idx with
  | nil => cases h; exact List.Forall₂.nil
  | cons s ss ih =>
    cases h with
    | cons h1 h2 =>
      have := ih h2
      simp only [advance]
      split
      · split
        · exact List.Forall₂.cons ⟨le_refl _, by omega⟩ this
        · exact List.Forall₂.cons ⟨by omega, by omega⟩ this
      · exact List.Forall₂.cons h1 this

theorem position_eq {dims : List Dim} {idx : List Int} (h : ValidIdx (dims.map Dim.size) idx) :
    position dims idx = .ok (addr dims idx) := by
  induction dims generalizing idx with
  | nil => cases h; rfl
  | cons d ds ih =>
    cases h with
    | cons h1 h2 =>
      simp only [position, addr]
      rw [if_neg (by omega), ih h2, Outcome.bind_ok, Int.tmod_eq_of_lt h1.1 h1.2]
      rfl

theorem text_append (put : V → List Char) (l r : List (Option V)) :
    text put (l ++ r) = text put l ++ text put r := by simp [text]

theorem text_breaks (put : V → List Char) (n : Nat) :
    text put (List.replicate n none) = List.replicate n '\n' := by
  induction n with
  | zero => rfl
  | succ n ih => rw [List.replicate_succ, List.replicate_succ, ← ih]; simp [text]

/-- Where the index is after `n` turns. -/
def after (shape : List Int) : Nat → List Int → List Int
  | 0, idx => idx
  | n + 1, idx => (advance shape (after shape n idx)).1

theorem run_succ (shape : List Int) (A : List Int → V) (n : Nat) (idx : List Int) :
    run shape A (n + 1) idx = run shape A n idx ++ (some (A (after shape n idx)) ::
      List.replicate (advance shape (after shape n idx)).2.1 none) := by
  have hcomm : ∀ n idx, after shape n (advance shape idx).1 = after shape (n + 1) idx := by
    intro n
    induction n with
    | zero => intro idx; rfl
    | succ n ih => intro idx; simp only [after]; rw [ih]; rfl
  induction n generalizing idx with
  | zero => simp [run, after]
  | succ n ih =>
    rw [run, ih, hcomm]
    simp [run]

theorem loop_run {h : Heap V} {c : Arr} {A : List Int → V} (hA : h.Contains c A)
    (put : V → List Char) (hdr : List Char) (n : Nat) (idx : List Int) (hi : ValidIdx c.shape idx) :
    forLoop n (fun _ st => printOne put h c st) (idx, hdr) =
      .ok (after c.shape n idx, hdr ++ text put (run c.shape A n idx)) := by
  have hv : ∀ n, ValidIdx c.shape (after c.shape n idx) := by
    intro n
    induction n with
    | zero => exact hi
    | succ n ih => exact advance_valid ih
  induction n with
  | zero => simp [run, after, text]
  | succ n ih =>
    rw [forLoop_succ, ih, Outcome.bind_ok, printOne, position_eq (hv n), Outcome.bind_ok]
    have hl : h.load c.blk (addr c.dims (after c.shape n idx)) = .ok (A (after c.shape n idx)) := by
      have := hA _ (hv n)
      unfold Heap.get at this
      simp [Heap.load, Buf.load, this]
    simp only [hl, Outcome.bind_ok, Outcome.pure_eq, run_succ, after]
    rw [text_append, show ∀ (v : V) r, text put (some v :: r) = put v ++ [' '] ++ text put r from
      fun v r => by simp [text], text_breaks]
    simp [List.append_assoc]

theorem foldl_prod (l : List Int) (x : Int) : l.foldl (· * ·) x = x * l.prod := by
  induction l generalizing x with
  | nil => simp
  | cons a l ih => rw [List.foldl_cons, ih, List.prod_cons]; ring

theorem prod_cast (sh : List Nat) : (sh.map Int.ofNat).prod = ((sh.prod : Nat) : Int) := by
  induction sh with
  | nil => rfl
  | cons s ss ih => simp only [List.map_cons, List.prod_cons, ih]; push_cast; rfl

theorem printed {h : Heap V} {c : Arr} {A : List Int → V} (hA : h.Contains c A) {sh : List Nat}
    (hsh : c.shape = sh.map Int.ofNat) (put : V → List Char) (hdr : List Char) :
    ∃ idx, forLoop (min c.numel 25).toNat (fun _ st => printOne put h c st)
        (c.dims.map fun _ => 0, hdr) =
      .ok (idx, hdr ++ if 0 ∈ sh then [] else text put (firstElements 25 (layout sh A))) := by
  have hn : c.numel = ((sh.prod : Nat) : Int) := by
    rw [Arr.numel, foldl_prod, one_mul, hsh, prod_cast]
  by_cases h0 : 0 ∈ sh
  · have : sh.prod = 0 := by
      clear hn hsh
      induction sh with
      | nil => simp at h0
      | cons s ss ih =>
        rcases List.mem_cons.1 h0 with rfl | h
        · simp
        · rw [List.prod_cons, ih h, Nat.mul_zero]
    rw [if_pos h0, hn, this]
    exact ⟨c.dims.map fun _ => 0, by simp⟩
  · rw [if_neg h0]
    have hpos : ∀ s ∈ sh, 0 < s := fun s hs => Nat.pos_of_ne_zero (by rintro rfl; exact h0 hs)
    have hidx : (c.dims.map fun _ => (0 : Int)) = sh.map fun _ => (0 : Int) := by
      have hlen : c.dims.length = sh.length := by
        have := congrArg List.length hsh; simpa [Arr.shape] using this
      rw [List.map_const', List.map_const', hlen]
    have hi : ValidIdx c.shape (c.dims.map fun _ => 0) := by
      rw [hidx, hsh]
      clear hidx hn hsh h0
      induction sh with
      | nil => exact List.Forall₂.nil
      | cons s ss ih =>
        exact List.Forall₂.cons ⟨le_refl _, by have := hpos s (by simp); simpa using this⟩
          (ih fun x hx => hpos x (by simp [hx]))
    refine ⟨after c.shape (min c.numel 25).toNat (c.dims.map fun _ => 0), ?_⟩
    rw [loop_run hA put hdr _ _ hi]
    have hb := run_block A sh hpos [] [] rfl 0
    simp only [List.nil_append, Nat.add_zero, advance, List.replicate_zero, run, List.append_nil] at hb
    rw [show (min c.numel 25).toNat = min sh.prod 25 by rw [hn]; omega, hidx, hsh]
    congr 4
    rcases Nat.le_total 25 sh.prod with hle | hle
    · rw [Nat.min_eq_right hle, run_first _ _ 25 (sh.prod - 25), show 25 + (sh.prod - 25) = sh.prod by omega, hb]
    · rw [Nat.min_eq_left hle, hb]
      have hcount : ∀ n idx, (run (sh.map Int.ofNat) A n idx).countP Option.isSome = n := by
        intro n
        induction n with
        | zero => intro idx; rfl
        | succ n ih => intro idx; simp [run, ih, List.countP_append, List.countP_replicate, Nat.add_comm]
      have hfirst : ∀ (l : List (Option V)) n, l.countP Option.isSome ≤ n → firstElements n l = l := by
        intro l
        induction l with
        | nil => intro n _; cases n <;> rfl
        | cons x l ih =>
          intro n hc
          cases x with
          | none => cases n <;> simp only [firstElements] <;> rw [ih _ (by simpa using hc)]
          | some v =>
            cases n with
            | zero => simp at hc
            | succ n => simp only [firstElements]; rw [ih _ (by simpa using hc)]
      rw [hfirst _ _ (by rw [← hb, hcount]; exact hle)]

/-! ## Theorems -/

section
variable (B : Build) (num : Int → List Char) (list : List Int → List Char) (put : V → List Char)
  (junk : Int → V)

/-- C120, on the host: the text of every array, also of slices and other views, is its first line and
then the first 25 elements in row order, each with a blank, and a line break at the end of every
dimension. An array without elements is only its first line. -/
theorem C120_host (h : Heap V) (a : Arr) (A : List Int → V) (hA : h.Contains a A) (sh : List Nat)
    (hsh : a.shape = sh.map Int.ofNat) (ty : Dtype) (name : List Char) (hty : typeName ty = .ok name) :
    repr B num list put ty ⟨.cpu, 0⟩ a junk h =
      .ok (header num list a name ⟨.cpu, 0⟩ ++
        if 0 ∈ sh then [] else text put (firstElements 25 (layout sh A))) := by
  obtain ⟨idx, e⟩ := printed hA hsh put (header num list a name ⟨.cpu, 0⟩)
  rw [repr, hty, Outcome.bind_ok, C104_same_device, Outcome.bind_ok]
  simp only [e, Outcome.bind_ok]
  rfl

/-- C120, proved part on a cuda device: the same for arrays whose elements follow each other row by
row. -/
theorem C120_device_partial (hB : B.cuda = true) (h : Heap V) (a : Arr) (A : List Int → V)
    (hA : h.Contains a A) (hb : a.blk < h.next) (sh : List Nat) (hsh : a.shape = sh.map Int.ofNat)
    (dev : Dev) (hd : dev.kind = .cuda ∨ dev.kind = .cudaManaged)
    (hrow : ∀ idx, ValidIdx a.shape idx → addr a.dims idx = a.base + addr (denseDims a.shape).1 idx)
    (ty : Dtype) (name : List Char) (hty : typeName ty = .ok name) :
    repr B num list put ty dev a junk h =
      .ok (header num list a name dev ++
        if 0 ∈ sh then [] else text put (firstElements 25 (layout sh A))) := by
  have hwf : a.WF := by
    intro d hd'
    have : d.size ∈ a.shape := List.mem_map_of_mem hd'
    rw [hsh] at this
    obtain ⟨n, _, hn⟩ := List.mem_map.1 this
    rw [← hn]; exact Int.natCast_nonneg n
  obtain ⟨h', r, h1, h2, -, -, h3, -⟩ := C104_to_host_partial B hB h a hwf hb dev ⟨.cpu, 0⟩ hd (Or.inl rfl)
    A hA hrow junk
  obtain ⟨idx, e⟩ := printed h3 (h2.trans hsh) put (header num list a name dev)
  rw [repr, hty, Outcome.bind_ok, h1, Outcome.bind_ok]
  simp only [e, Outcome.bind_ok]
  rfl

/-- C120 fails for page-locked host memory: printing throws. -/
theorem C120_page_locked_throws (hB : B.cuda = true) (h : Heap V) (a : Arr) (n : Int) (ty : Dtype)
    (name : List Char) (hty : typeName ty = .ok name) :
    repr B num list put ty ⟨.cudaHost, n⟩ a junk h = .throws .runtimeError := by
  rw [repr, hty, Outcome.bind_ok]
  have : moveTo B h a ⟨.cudaHost, n⟩ ⟨.cpu, 0⟩ junk = .throws .runtimeError := by
    unfold moveTo
    rw [if_neg (by simp)]
    simp [allocOn, hB]
  rw [this]; rfl

/-- C120: a width without an element type throws. -/
theorem C120_unknown_type (ty : Dtype) (h1 : ty.code = .float → ty.bits ∉ [32, 64])
    (h2 : ty.code ≠ .float → ty.bits ∉ [8, 16, 32, 64]) (dev : Dev) (a : Arr) (h : Heap V) :
    repr B num list put ty dev a junk h = .throws .runtimeError := by
  have : typeName ty = .throws .runtimeError := by
    obtain ⟨code, bits, lanes⟩ := ty
    unfold typeName
    cases code <;> simp at h1 h2 <;> split <;> simp_all
  rw [repr, this]; rfl

end

/-- C120: the types of the library's arrays are known and have different names. -/
theorem C120_type_names (c c' : Code) (b b' l l' : Nat) (n : List Char)
    (h : typeName ⟨c, b, l⟩ = .ok n) (h' : typeName ⟨c', b', l'⟩ = .ok n) : c = c' ∧ b = b' := by
  unfold typeName at h h'
  cases c <;> cases c' <;> simp only at h h' <;> split at h <;> split at h' <;>
    first
    | (cases h; done)
    | (cases h'; done)
    | exact absurd (h.trans h'.symm) (by decide)
    | (simp_all; done)

/-- C120: the text of the device says which kind of memory it is and which device, for every printing of
integers that tells them apart. -/
theorem C120_device_names (num : Int → List Char) (hn : ∀ n m, num n = num m → n = m) (d d' : Dev)
    (h : devName num d = devName num d') : d = d' := by
  obtain ⟨k, i⟩ := d
  obtain ⟨k', i'⟩ := d'
  cases k <;> cases k' <;> simp [devName] at h <;> first
    | (rw [hn _ _ h]; done)
    | (exfalso; revert h; decide)

/-- How many elements a layout has: one for every index. -/
theorem C120_layout_elements (sh : List Nat) (A : List Int → V) :
    (layout sh A).countP Option.isSome = sh.prod := by
  induction sh generalizing A with
  | nil => rfl
  | cons s ss ih =>
    simp only [layout, List.countP_append, List.countP_flatMap, List.prod_cons]
    simp [Function.comp_def, ih]

/-- C121: the size along an existing axis; an axis past the last throws. -/
theorem C121_size_partial (a : Arr) (axis : Nat) :
    size a axis = match a.shape[axis]? with
      | some s => .ok s
      | none => .throws .invalidArgument := by
  unfold size
  by_cases h : axis < a.dims.length
  · have h1 : ((axis : Nat) : Int) < a.dims.length := by exact_mod_cast h
    rw [if_pos h1, if_neg (by omega), Int.toNat_natCast,
      List.getElem?_eq_getElem (by simpa [Arr.shape] using h)]
  · have h1 : ¬ ((axis : Nat) : Int) < a.dims.length := by exact_mod_cast h
    rw [if_neg h1, List.getElem?_eq_none (by simpa [Arr.shape] using h)]

/-- C121 fails: a negative axis is not refused, it reads in front of the shape. -/
theorem C121_negative_axis (a : Arr) (axis : Int) (h : axis < 0) : size a axis = .ub := by
  unfold size
  rw [if_pos (by omega), if_pos h]

/-! ## Examples -/

/-- A 2 by 3 part of a 3 by 4 array with elements 0, 1, …: rows 1 and 2, columns 1 to 3. -/
def exPart : Arr := ⟨0, [⟨2, 4, 4⟩, ⟨3, 1, 1⟩]⟩

def exHeap : Heap Nat := ⟨fun b => if b = 0 then Buf.ofFn 12 Int.toNat else fun _ => none, 1⟩

/-- Prints digits. -/
def exPut (n : Nat) : List Char := (toString n).toList

/-- The elements of `exPart`. -/
def exElems (idx : List Int) : Nat := (4 * (idx.getD 0 0 + 1) + idx.getD 1 0 + 1).toNat

example : layout [2, 3] exElems =
    [some 5, some 6, some 7, none, some 9, some 10, some 11, none, none] := by decide +kernel

example : exHeap.Contains exPart exElems ∧ exPart.shape = [2, 3].map Int.ofNat ∧
    typeName ⟨.uint, 32, 1⟩ = .ok "uint32_t".toList := by
  refine ⟨?_, by decide, by decide⟩
  intro idx hi
  match idx, hi with
  | [i, j], List.Forall₂.cons hi (List.Forall₂.cons hj List.Forall₂.nil) =>
    simp only at hi hj
    simp only [Heap.get, exHeap, exPart, addr, Buf.ofFn, if_pos, exElems, List.getD_cons_zero,
      List.getD_cons_succ]
    rw [if_pos (by omega)]
    congr 2; omega

example : (repr (V := Nat) ⟨false, fun _ => false⟩ (fun n => (toString n).toList) (fun _ => "[2, 3]".toList) exPut
      ⟨.uint, 32, 1⟩ ⟨.cpu, 0⟩ exPart (fun _ => 0) exHeap) =
    .ok "bland shape [2, 3] with dtype uint32_t on device cpu:0:\n5 6 7 \n9 10 11 \n\n".toList := by
  decide +kernel

/-- C120 fails for views on a cuda device: printing the part shows the elements after its first one
in memory. -/
theorem C120_device_view_wrong :
    repr (V := Nat) ⟨true, fun _ => true⟩ (fun n => (toString n).toList) (fun _ => "[2, 3]".toList) exPut
        ⟨.uint, 32, 1⟩ ⟨.cuda, 0⟩ exPart (fun _ => 0) exHeap =
      .ok "bland shape [2, 3] with dtype uint32_t on device cuda:0:\n5 6 7 \n8 9 10 \n\n".toList := by
  decide +kernel

example : size exPart 1 = .ok 3 ∧ size exPart 2 = .throws .invalidArgument := by decide

end Bliss.Repr
