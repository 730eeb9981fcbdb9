import Verif.Nd.Props
import Mathlib.Data.List.Basic

/-!
# Arrays in raw files (C105)

Models `bland::write_to_file`, `bland::read_from_file` (bland/bland/ops/ops.cpp lines 24-43,
bland/bland/ops/cpu/ops_cpu.cpp lines 19-70) byte by byte, for arrays on the CPU. Files that cannot be
opened and failing writes are not modelled; the copy of four bytes through a variable of type `float`
is taken to keep them.
-/

namespace Bliss.RawFile

open Nd

/-- The memory of an array: its bytes. -/
abbrev Bytes := Buf UInt8

/-- Reading `n` bytes from byte `p` on. -/
def loadBytes (m : Bytes) (p : Int) : Nat → Outcome (List UInt8)
  | 0 => .ok []
  | n + 1 => do
    let b ← m.load p
    let bs ← loadBytes m (p + 1) n
    pure (b :: bs)

/-- One iteration of the loop of `write_to_file` (`ops_cpu.cpp:37-50`): `x_data` is a `float *`, so
element `p` is taken to be the four bytes from byte `4 p` on. -/
def writeBody (m : Bytes) (ld : List (LoopDim Int)) (st : List UInt8 × List Int × Int) :
    Outcome (List UInt8 × List Int × Int) := do
  let (out, idx, p) := st
  let bs ← loadBytes m (4 * p) 4
  let r := odoA ld idx p
  pure (out ++ bs, r.1, r.2.1)

/-- `write_to_file` (`ops_cpu.cpp:19-52`): the contents of the file. The type of the elements is not
looked at. -/
def writeFile (m : Bytes) (a : Arr) : Outcome (List UInt8) := do
  let (out, _, _) ← forLoop a.numel.toNat (fun _ st => writeBody m (fillDims a) st)
    ([], a.dims.map (fun _ => 0), a.base)
  pure out

/-- `in_file.read(x_ptr, file_length_bytes)` (`ops_cpu.cpp:67`): the bytes of the file, one after the
other, into the memory. -/
def readInto (file : List UInt8) (m : Bytes) : Outcome Bytes :=
  forLoop file.length (fun (k : Nat) m => m.store (k : Int) (file.getD k 0)) m

/-- `read_from_file` (`ops_cpu.cpp:54-70`): a one-dimensional array of `length / (bits / 8)` elements
of `bits` bits, new memory for these (`bland_tensor_internals.cpp:77-82`), and then all bytes of the
file. -/
def readFile (file : List UInt8) (bits : Nat) (junk : Int → UInt8) : Outcome (Bytes × Arr) :=
  if bits / 8 = 0 then .ub
  else
    let numel := file.length / (bits / 8)
    do
      let m ← readInto file (Buf.ofFn ((numel * (bits / 8) : Nat) : Int) junk)
      pure (m, { blk := 0, dims := (denseDims [(numel : Int)]).1 })

/-! ## Specification -/

/-- The array `a` in the memory `m` has elements of `sz` bytes: that at `idx` consists of the bytes
`E idx`, stored from byte `sz * address` on. -/
def Holds (m : Bytes) (sz : Nat) (a : Arr) (E : List Int → List UInt8) : Prop :=
  ∀ idx, ValidIdx a.shape idx → (E idx).length = sz ∧
    ∀ j (h : j < (E idx).length), m ((sz : Int) * addr a.dims idx + (j : Int)) = some ((E idx)[j])

/-- The number of `idx` in row-major order. -/
def rowMajor (shape : List Int) (idx : List Int) : Nat := (addr (denseDims shape).1 idx).toNat

/-! ## Proofs -/

theorem loadBytes_ok {m : Bytes} {p : Int} {bs : List UInt8}
    (h : ∀ j (hj : j < bs.length), m (p + (j : Int)) = some (bs[j])) :
    loadBytes m p bs.length = .ok bs := by
  induction bs generalizing p with
  | nil => rfl
  | cons b bs ih =>
    have h0 := h 0 (by simp)
    simp only [Nat.cast_zero, add_zero, List.getElem_cons_zero] at h0
    simp only [List.length_cons, loadBytes]
    rw [Buf.load_some h0, Outcome.bind_ok, ih (fun j hj => by
      have := h (j + 1) (by simpa using hj)
      rw [List.getElem_cons_succ] at this
      rw [← this]; congr 1; push_cast; ring)]
    rfl

theorem loadBytes_quiet (m : Bytes) (p : Int) (n : Nat) : (loadBytes m p n).Quiet (fun _ => True) := by
  induction n generalizing p with
  | zero => exact .inr ⟨_, rfl, trivial⟩
  | succ n ih =>
    refine Outcome.Quiet.bind (Q := fun _ => True) ?_ (fun b _ =>
      Outcome.Quiet.bind (ih (p + 1)) (fun bs _ => .inr ⟨_, rfl, trivial⟩))
    unfold Buf.load
    cases m p with
    | none => exact .inl rfl
    | some b => exact .inr ⟨b, rfl, trivial⟩

theorem loadBytes_ub {m : Bytes} {p : Int} {n : Nat} {j : Nat} (hj : j < n) (h : m (p + (j : Int)) = none) :
    loadBytes m p n = .ub := by
  induction n generalizing p j with
  | zero => omega
  | succ n ih =>
    simp only [loadBytes]
    cases hp : m p with
    | none => simp [Buf.load, hp]
    | some b =>
      rw [Buf.load_some hp, Outcome.bind_ok]
      cases j with
      | zero => simp [hp] at h
      | succ j =>
        rw [ih (j := j) (by omega) (by rw [← h]; congr 1; push_cast; ring)]
        rfl

section Setup
variable (a : Arr) (ha : a.WF)
include ha

theorem sizes_of : (fillDims a).map LoopDim.size = a.shape := by
  simp [fillDims, Arr.shape, Function.comp_def]

theorem count_of : a.numel.toNat = cells (fillDims a) := by
  have := cells_eq (fillDims a) (by
    intro d hd
    simp only [fillDims, List.mem_map] at hd
    obtain ⟨o, ho, rfl⟩ := hd
    exact ha o ho)
  rw [sizes_of a ha] at this
  unfold Arr.numel
  rw [← this]; simp

theorem origin_of : a.dims.map (fun _ => (0 : Int)) = zeros (fillDims a) := by
  rw [zeros_eq]; simp [fillDims, Function.comp_def]

theorem address_of (k : Nat) : a.base + dot (fillDims a) (unravel (fillDims a) k)
    = addr a.dims (unravel (fillDims a) k) := by
  rw [addr_eq _ _ (by rw [unravel_length]; simp [fillDims]), fillDims, fillDims_dot]; rfl

theorem reset_of (hpos : 0 < cells (fillDims a)) : ResetA (fillDims a) := by
  intro d hd
  refine ⟨?_, ?_⟩
  · by_contra hn
    have := cells_zero_of_mem hd (by omega)
    omega
  · simp only [fillDims, List.mem_map] at hd
    obtain ⟨o, ho, rfl⟩ := hd
    simp

end Setup

theorem ravel_dense {shape idx : List Int} (h : ValidIdx shape idx) {ld : List (LoopDim Int)}
    (hs : ld.map LoopDim.size = shape) :
    ((ravel ld idx : Nat) : Int) = addr (denseDims shape).1 idx ∧
      ((cells ld : Nat) : Int) = (denseDims shape).2 := by
  unfold ValidIdx at h
  induction h generalizing ld with
  | nil =>
    have : ld = [] := List.map_eq_nil_iff.1 hs
    subst this
    simp [ravel, addr, denseDims, cells]
  | @cons s i ss is h hss ih =>
    cases ld with
    | nil => simp at hs
    | cons d ds =>
      simp only [List.map_cons, List.cons.injEq] at hs
      obtain ⟨h1, h2⟩ := ih hs.2
      simp only [ravel, cells, denseDims, addr, zero_add]
      push_cast
      rw [h1, h2, hs.1, Int.toNat_of_nonneg h.1, Int.toNat_of_nonneg (by omega)]
      exact ⟨rfl, Int.mul_comm _ _⟩

/-- What `write_to_file` writes if all the bytes it asks for exist. -/
theorem write_ok (m : Bytes) (a : Arr) (ha : a.WF) (L : Nat → List UInt8)
    (hL : ∀ k < cells (fillDims a), loadBytes m (4 * addr a.dims (unravel (fillDims a) k)) 4 = .ok (L k)) :
    writeFile m a = .ok ((List.range (cells (fillDims a))).flatMap L) := by
  unfold writeFile
  rw [count_of a ha, origin_of a ha]
  obtain ⟨st, h1, h2, _⟩ := forLoop_inv (n := cells (fillDims a))
    (body := fun _ st => writeBody m (fillDims a) st) (s := ([], zeros (fillDims a), a.base))
    (fun n st => st.1 = (List.range n).flatMap L ∧ (n < cells (fillDims a) →
      st.2.1 = unravel (fillDims a) n ∧ st.2.2 = a.base + dot (fillDims a) (unravel (fillDims a) n)))
    ⟨rfl, fun _ => ⟨(unravel_zero _).symm, by rw [unravel_zero, dot_zeros, add_zero]⟩⟩
    (by
      rintro n ⟨out, idx, p⟩ hn ⟨rfl, hs⟩
      obtain ⟨rfl, rfl⟩ := hs hn
      refine ⟨_, by
        simp only [writeBody]
        rw [address_of a ha, hL n hn]
        rfl, ?_, fun hn1 => ?_⟩
      · simp [List.range_succ]
      · have := odoA_step (reset_of a ha (by omega)) a.base hn
        rw [address_of a ha n] at this
        simp only [this, hn1, if_true, address_of a ha]
        exact ⟨trivial, trivial⟩)
  rw [h1, Outcome.bind_ok]
  simp only [Outcome.pure_eq]
  rw [h2]

/-- If one of the bytes `write_to_file` asks for is outside the memory the call is undefined. -/
theorem write_ub (m : Bytes) (a : Arr) (ha : a.WF) {k : Nat} (hk : k < cells (fillDims a))
    (hb : loadBytes m (4 * addr a.dims (unravel (fillDims a) k)) 4 = .ub) : writeFile m a = .ub := by
  unfold writeFile
  rw [count_of a ha, origin_of a ha]
  rw [forLoop_ub (n := cells (fillDims a))
    (body := fun _ st => writeBody m (fillDims a) st) (s := ([], zeros (fillDims a), a.base))
    (fun n st => n < cells (fillDims a) →
      st.2.1 = unravel (fillDims a) n ∧ st.2.2 = a.base + dot (fillDims a) (unravel (fillDims a) n))
    (fun _ => ⟨(unravel_zero _).symm, by rw [unravel_zero, dot_zeros, add_zero]⟩)
    (by
      rintro n ⟨out, idx, p⟩ hn hs
      obtain ⟨rfl, rfl⟩ := hs hn
      refine Outcome.Quiet.bind (loadBytes_quiet _ _ _) (fun bs _ => .inr ⟨_, rfl, fun hn1 => ?_⟩)
      simp only [odoA_step (reset_of a ha (by omega)) a.base hn, hn1, if_true]
      exact ⟨trivial, trivial⟩) hk
    (by
      rintro ⟨out, idx, p⟩ hs
      obtain ⟨rfl, rfl⟩ := hs hk
      simp only [writeBody]
      rw [address_of a ha, hb]
      rfl)]
  rfl

theorem flatMap_four (L : Nat → List UInt8) (N : Nat) (hL : ∀ k < N, (L k).length = 4) :
    ((List.range N).flatMap L).length = 4 * N ∧
      ∀ k < N, ∀ j, j < 4 → ((List.range N).flatMap L)[4 * k + j]? = (L k)[j]? := by
  induction N with
  | zero => simp
  | succ N ih =>
    obtain ⟨h1, h2⟩ := ih (fun k hk => hL k (by omega))
    rw [List.range_succ, List.flatMap_append]
    simp only [List.flatMap_cons, List.flatMap_nil, List.append_nil, List.length_append]
    refine ⟨by rw [h1, hL N (by omega)]; omega, fun k hk j hj => ?_⟩
    by_cases e : k = N
    · subst e
      rw [List.getElem?_append_right (by omega), h1]
      congr 1; omega
    · rw [List.getElem?_append_left (by omega)]
      exact h2 k (by omega) j hj

/-- C105, proved part: an array of 4-byte elements, however it lies in memory, is written element by
element in row-major order. -/
theorem C105_write_partial (m : Bytes) (a : Arr) (ha : a.WF) (E : List Int → List UInt8)
    (hE : Holds m 4 a E) :
    ∃ file, writeFile m a = .ok file ∧ (file.length : Int) = 4 * a.numel ∧
      ∀ idx, ValidIdx a.shape idx → ∀ j, j < 4 → file[4 * rowMajor a.shape idx + j]? = (E idx)[j]? := by
  have hv : ∀ k < cells (fillDims a), ValidIdx a.shape (unravel (fillDims a) k) := by
    intro k hk
    have := (inBox_iff _ _).1 (unravel_inBox hk)
    rwa [sizes_of a ha] at this
  have hc := count_of a ha
  have hn : 0 ≤ a.numel := by
    have := cells_eq (fillDims a) (by
      intro d hd
      simp only [fillDims, List.mem_map] at hd
      obtain ⟨o, ho, rfl⟩ := hd
      exact ha o ho)
    rw [sizes_of a ha] at this
    unfold Arr.numel
    omega
  have hlen := flatMap_four (fun k => E (unravel (fillDims a) k)) (cells (fillDims a))
    (fun k hk => (hE _ (hv k hk)).1)
  refine ⟨_, write_ok m a ha (fun k => E (unravel (fillDims a) k)) (fun k hk => ?_), ?_, ?_⟩
  · obtain ⟨h1, h2⟩ := hE _ (hv k hk)
    have := loadBytes_ok (m := m) (p := 4 * addr a.dims (unravel (fillDims a) k)) (fun j hj => h2 j hj)
    rwa [h1] at this
  · rw [hlen.1]; push_cast; omega
  · intro idx hi j hj
    have hb : InBox (fillDims a) idx := (inBox_iff _ _).2 (by rw [sizes_of a ha]; exact hi)
    have e := (ravel_dense hi (sizes_of a ha)).1
    have e' : rowMajor a.shape idx = ravel (fillDims a) idx := by unfold rowMajor; omega
    rw [e', hlen.2 _ (ravel_lt hb) j hj, unravel_ravel hb]

theorem readInto_ok (file : List UInt8) (n : Int) (hn : (file.length : Int) ≤ n) (junk : Int → UInt8) :
    ∃ m, readInto file (Buf.ofFn n junk) = .ok m ∧
      ∀ k (h : k < file.length), m ((k : Nat) : Int) = some (file[k]) := by
  unfold readInto
  obtain ⟨m, h1, h2, _⟩ := forLoop_inv (n := file.length) (s := Buf.ofFn n junk)
    (body := fun (k : Nat) (m : Bytes) => m.store (k : Int) (file.getD k 0))
    (fun c m => (∀ k (h : k < file.length), k < c → m ((k : Nat) : Int) = some (file[k])) ∧
      ∀ i, 0 ≤ i → i < n → m i ≠ none)
    ⟨fun k _ h => absurd h (by omega), fun i h0 h1 => by simp [Buf.ofFn, h0, h1]⟩
    (by
      rintro k m hk ⟨hd, hm⟩
      obtain ⟨v, hv⟩ := Option.ne_none_iff_exists'.mp (hm (k : Int) (by omega) (by omega))
      refine ⟨_, Buf.store_some hv _, fun j hj hjk => ?_, fun i h0 h1 => ?_⟩
      · by_cases e : j = k
        · subst e; simp [hk]
        · rw [if_neg (by exact_mod_cast e)]; exact hd j hj (by omega)
      · split
        · simp
        · exact hm i h0 h1)
  exact ⟨m, h1, fun k hk => h2 k hk hk⟩

/-- C105, proved part: a file whose length is a multiple of the size of the elements is read as a
one-dimensional array with one element per `bits / 8` bytes, in the order of the file. -/
theorem C105_read_partial (file : List UInt8) (bits : Nat) (hb : bits / 8 ≠ 0)
    (hm : bits / 8 ∣ file.length) (junk : Int → UInt8) :
    ∃ m a, readFile file bits junk = .ok (m, a) ∧ a.shape = [((file.length / (bits / 8) : Nat) : Int)] ∧
      Holds m (bits / 8) a (fun idx =>
        (file.drop (bits / 8 * rowMajor a.shape idx)).take (bits / 8)) := by
  have hmul := Nat.div_mul_cancel hm
  obtain ⟨m, h1, h2⟩ := readInto_ok file ((file.length / (bits / 8) * (bits / 8) : Nat) : Int)
    (by rw [hmul]) junk
  have hs : ({ blk := 0, dims := (denseDims [((file.length / (bits / 8) : Nat) : Int)]).1 } : Arr).shape =
      [((file.length / (bits / 8) : Nat) : Int)] := denseDims_shape _
  refine ⟨m, { blk := 0, dims := (denseDims [((file.length / (bits / 8) : Nat) : Int)]).1 }, ?_, hs, ?_⟩
  · unfold readFile
    rw [if_neg hb]
    dsimp only
    rw [h1]; rfl
  · intro idx hi
    rw [hs] at hi ⊢
    obtain ⟨hb0, hb1⟩ := dense_bounds hi
    have hb2 : (denseDims [((file.length / (bits / 8) : Nat) : Int)]).2 = ((file.length / (bits / 8) : Nat) : Int) := by
      simp [denseDims]
    rw [hb2] at hb1
    have hr : ((rowMajor [((file.length / (bits / 8) : Nat) : Int)] idx : Nat) : Int) =
        addr (denseDims [((file.length / (bits / 8) : Nat) : Int)]).1 idx := by
      unfold rowMajor; omega
    have hlt : rowMajor [((file.length / (bits / 8) : Nat) : Int)] idx < file.length / (bits / 8) := by omega
    have hle : bits / 8 * rowMajor [((file.length / (bits / 8) : Nat) : Int)] idx + bits / 8 ≤ file.length := by
      calc bits / 8 * rowMajor [((file.length / (bits / 8) : Nat) : Int)] idx + bits / 8
          = bits / 8 * (rowMajor [((file.length / (bits / 8) : Nat) : Int)] idx + 1) := by ring
        _ ≤ bits / 8 * (file.length / (bits / 8)) := Nat.mul_le_mul_left _ hlt
        _ = file.length := by rw [Nat.mul_comm]; exact hmul
    refine ⟨by rw [List.length_take, List.length_drop]; omega, fun j hj => ?_⟩
    rw [List.length_take, List.length_drop] at hj
    rw [← hr, List.getElem_take, List.getElem_drop,
      ← h2 (bits / 8 * rowMajor [((file.length / (bits / 8) : Nat) : Int)] idx + j) (by omega)]
    push_cast; rfl

/-- C105, proved part: an array of 4-byte elements that is written and read back as 4-byte elements
comes back flattened, element for element. -/
theorem C105_round_trip_partial (m : Bytes) (a : Arr) (ha : a.WF) (E : List Int → List UInt8)
    (hE : Holds m 4 a E) (junk : Int → UInt8) :
    ∃ file m' r, writeFile m a = .ok file ∧ readFile file 32 junk = .ok (m', r) ∧ r.shape = [a.numel] ∧
      ∀ idx, ValidIdx a.shape idx → ∀ j (h : j < (E idx).length),
        m' (4 * addr r.dims [(rowMajor a.shape idx : Int)] + (j : Int)) = some ((E idx)[j]) := by
  obtain ⟨file, h1, h2, h3⟩ := C105_write_partial m a ha E hE
  have hd : 4 ∣ file.length := by
    have : (4 : Int) ∣ file.length := ⟨a.numel, h2⟩
    exact_mod_cast this
  obtain ⟨m', r, h4, h5, h6⟩ := C105_read_partial file 32 (by norm_num) (by simpa using hd) junk
  have hn : ((file.length / (32 / 8) : Nat) : Int) = a.numel := by norm_num; omega
  rw [hn] at h5
  refine ⟨file, m', r, h1, h4, h5, fun idx hi j hj => ?_⟩
  obtain ⟨hb0, hb1⟩ := dense_bounds hi
  have hb2 : (denseDims a.shape).2 = a.numel := denseDims_numel _
  have hi' : ValidIdx r.shape [(rowMajor a.shape idx : Int)] := by
    rw [h5]; exact .cons ⟨by omega, by unfold rowMajor; omega⟩ .nil
  have hrr : rowMajor r.shape [(rowMajor a.shape idx : Int)] = rowMajor a.shape idx := by
    rw [h5]; generalize rowMajor a.shape idx = q; simp [rowMajor, denseDims, addr]
  obtain ⟨h7, h8⟩ := h6 _ hi'
  dsimp only at h7 h8
  simp only [hrr] at h7 h8
  have hl := (hE idx hi).1
  have := h8 j (by rw [h7]; norm_num; omega)
  norm_num at this ⊢
  rw [this]
  congr 1
  have := h3 idx hi j (by omega)
  rw [List.getElem?_eq_getElem hj, List.getElem?_eq_some_iff] at this
  obtain ⟨_, e⟩ := this
  exact e

/-- A new array: `n` elements of `sz` bytes in row-major order. -/
def newArray (shape : List Int) : Arr := { blk := 0, dims := (denseDims shape).1 }

theorem newArray_wf {shape : List Int} (h : ∀ x ∈ shape, 0 ≤ x) : (newArray shape).WF := by
  intro d hd
  refine h _ ?_
  rw [← denseDims_shape shape]
  exact List.mem_map_of_mem hd

theorem newArray_addr {shape : List Int} (h : ∀ x ∈ shape, 0 ≤ x) {k : Nat}
    (hk : k < cells (fillDims (newArray shape))) :
    addr (newArray shape).dims (unravel (fillDims (newArray shape)) k) = (k : Int) := by
  have hs := sizes_of (newArray shape) (newArray_wf h)
  have hs' : (newArray shape).shape = shape := denseDims_shape shape
  have hv := (inBox_iff _ _).1 (unravel_inBox hk)
  rw [hs, hs'] at hv
  have := (ravel_dense hv (hs.trans hs')).1
  rw [ravel_unravel hk] at this
  exact this.symm

/-- C105 fails: writing any non-empty new array of elements of 1 or 2 bytes (masks, counters) reads
outside its memory. -/
theorem C105_small_types_undefined (shape : List Int) (h : ∀ x ∈ shape, 0 ≤ x) (sz : Nat) (hsz : sz < 4)
    (hn : 0 < (newArray shape).numel) (content : Int → UInt8) :
    writeFile (Buf.ofFn ((sz : Int) * (newArray shape).numel) content) (newArray shape) = .ub := by
  have hc := count_of (newArray shape) (newArray_wf h)
  have hk : (newArray shape).numel.toNat - 1 < cells (fillDims (newArray shape)) := by omega
  refine write_ub _ _ (newArray_wf h) hk ?_
  rw [newArray_addr h hk]
  refine loadBytes_ub (j := 3) (by omega) ?_
  unfold Buf.ofFn
  rw [if_neg]
  rintro ⟨_, h2⟩
  have : (sz : Int) * (newArray shape).numel ≤ 3 * (newArray shape).numel :=
    Int.mul_le_mul_of_nonneg_right (by omega) (by omega)
  omega

/-- C105 fails: of a new array of 8-byte elements only the first half of the bytes is written. -/
theorem C105_wide_types_halved (shape : List Int) (h : ∀ x ∈ shape, 0 ≤ x) (content : Int → UInt8) :
    ∃ file, writeFile (Buf.ofFn (8 * (newArray shape).numel) content) (newArray shape) = .ok file ∧
      (file.length : Int) = 4 * (newArray shape).numel ∧
      ∀ k (hk : k < file.length), file[k] = content k := by
  have hwf := newArray_wf h
  have hc := count_of (newArray shape) hwf
  have hv : ∀ idx, ValidIdx (newArray shape).shape idx →
      0 ≤ addr (newArray shape).dims idx ∧ addr (newArray shape).dims idx < (newArray shape).numel := by
    intro idx hi
    have hs' : (newArray shape).shape = shape := denseDims_shape shape
    rw [hs'] at hi
    have := dense_bounds hi
    unfold Arr.numel
    rw [hs', ← denseDims_numel]; exact this
  obtain ⟨file, h1, h2, h3⟩ := C105_write_partial (Buf.ofFn (8 * (newArray shape).numel) content)
    (newArray shape) hwf
    (fun idx => (List.range 4).map (fun (j : Nat) => content (4 * addr (newArray shape).dims idx + (j : Int))))
    (by
      intro idx hi
      refine ⟨by simp, fun j hj => ?_⟩
      obtain ⟨h0, h1⟩ := hv idx hi
      simp at hj
      unfold Buf.ofFn
      rw [if_pos (by push_cast; omega)]
      simp)
  refine ⟨file, h1, h2, fun k hk => ?_⟩
  have hk4 : k / 4 < cells (fillDims (newArray shape)) := by omega
  have hin := (inBox_iff _ _).1 (unravel_inBox hk4)
  rw [sizes_of _ hwf] at hin
  have ha := newArray_addr h hk4
  have hrm : rowMajor (newArray shape).shape (unravel (fillDims (newArray shape)) (k / 4)) = k / 4 := by
    have := (ravel_dense hin (sizes_of _ hwf)).1
    rw [ravel_unravel hk4] at this
    unfold rowMajor; omega
  have := h3 _ hin (k % 4) (by omega)
  rw [hrm, ha, show 4 * (k / 4) + k % 4 = k by omega, List.getElem?_eq_getElem hk,
    List.getElem?_eq_getElem (by simp; omega)] at this
  simp only [List.getElem_map, List.getElem_range, Option.some.injEq] at this
  rw [this]
  congr 1; omega

/-- C105 fails: reading a file whose length is not a multiple of the size of the elements writes
outside the new memory. -/
theorem C105_ragged_undefined (file : List UInt8) (bits : Nat) (hm : ¬ bits / 8 ∣ file.length)
    (junk : Int → UInt8) : readFile file bits junk = .ub := by
  unfold readFile
  split
  · rfl
  · rename_i hb
    dsimp only
    have hlt : file.length / (bits / 8) * (bits / 8) < file.length := by
      have h1 := Nat.div_add_mod file.length (bits / 8)
      have h2 : file.length % (bits / 8) ≠ 0 := fun e => hm (Nat.dvd_of_mod_eq_zero e)
      rw [Nat.mul_comm]; omega
    generalize file.length / (bits / 8) * (bits / 8) = n at hlt
    have : readInto file (Buf.ofFn (n : Int) junk) = .ub := by
      unfold readInto
      refine forLoop_ub (fun _ (m : Bytes) => m (n : Int) = none) (by simp [Buf.ofFn]) ?_ hlt ?_
      · intro k m hk hn
        unfold Buf.store
        cases hm : m (k : Int) with
        | none => exact .inl rfl
        | some v =>
          refine .inr ⟨_, rfl, ?_⟩
          dsimp only
          rw [if_neg]
          · exact hn
          · intro e; rw [e] at hn; rw [hn] at hm; cases hm
      · intro m hn
        simp [Buf.store, hn]
    rw [this]; rfl

/-- C105 fails: element types of fewer than 8 bits divide by zero. -/
theorem C105_tiny_types_undefined (file : List UInt8) (bits : Nat) (hb : bits < 8) (junk : Int → UInt8) :
    readFile file bits junk = .ub := by
  unfold readFile
  rw [if_pos (by omega)]

/-- The second column of a 2×2 array of 4-byte elements is written as its two elements. -/
example : writeFile (Buf.ofFn 16 (fun i => UInt8.ofNat i.toNat)) { blk := 0, dims := [⟨2, 2, 0⟩, ⟨1, 1, 1⟩] } =
    .ok [4, 5, 6, 7, 12, 13, 14, 15] := by decide +kernel

/-- The second column satisfies the hypotheses of `C105_write_partial`. -/
example : Holds (Buf.ofFn 16 (fun i => UInt8.ofNat i.toNat)) 4 { blk := 0, dims := [⟨2, 2, 0⟩, ⟨1, 1, 1⟩] }
    (fun idx => (List.range 4).map (fun (j : Nat) => UInt8.ofNat (4 * addr [⟨2, 2, 0⟩, ⟨1, 1, 1⟩] idx + (j : Int)).toNat)) := by
  intro idx hi
  refine ⟨by simp, fun j hj => ?_⟩
  simp at hj
  rcases hi with _ | @⟨_, i, _, _, h1, _ | @⟨_, k, _, _, h2, h3⟩⟩
  cases h3
  simp only [addr] at *
  unfold Buf.ofFn
  rw [if_pos (by push_cast; omega)]
  simp

/-- Ten bytes read as 4-byte elements overflow; eight bytes are two elements. -/
example : (∀ junk, readFile (List.replicate 10 0) 32 junk = .ub) ∧
    ∀ junk, ∃ m a, readFile (List.replicate 8 7) 32 junk = .ok (m, a) ∧ a.shape = [2] :=
  ⟨fun junk => C105_ragged_undefined _ _ (by simp) junk, fun junk => by
    obtain ⟨m, a, h1, h2, _⟩ := C105_read_partial (List.replicate 8 7) 32 (by norm_num) (by simp) junk
    exact ⟨m, a, h1, by simpa using h2⟩⟩

end Bliss.RawFile
