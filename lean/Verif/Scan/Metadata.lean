import Verif.Scan.Props

/-!
# The metadata of a scan (C135)

The constructor of a scan reads fifteen attributes of the file, some of which may be missing; the
setters overwrite them. Here: what the getters report after any sequence of setters, what else they
change, and which channels see the change.
-/

namespace Bliss.Scan

variable {F D Dev P : Type}

/-- The outcome of `read_data_attr` for each attribute the constructor asks for
(bliss/core/scan.cpp lines 118-186); a missing attribute throws `std::invalid_argument`
(bliss/file_types/h5_filterbank_file.cpp). -/
structure FileAttrs (D : Type) where
  fch1 : Outcome D
  foff : Outcome D
  machineId : Outcome Int
  sourceName : Outcome String
  srcDej : Outcome D
  srcRaj : Outcome D
  telescopeId : Outcome Int
  tsamp : Outcome D
  tstart : Outcome D
  azStart : Outcome D
  zaStart : Outcome D
  dataType : Outcome Int
  nbits : Outcome Int
  nchans : Outcome Int
  nifs : Outcome Int

/-- The members of a scan that hold attributes (bliss/core/include/core/scan.hpp lines 142-157).
`none` is an empty `std::optional` in `machineId`, `srcDej`, `srcRaj`, `telescopeId`, `azStart` and
`zaStart`, and an uninitialised number in `nbits`, `nchans` and `nifs`. -/
structure Members (D : Type) where
  fch1 : D
  foff : D
  machineId : Option Int
  sourceName : String
  srcDej : Option D
  srcRaj : Option D
  telescopeId : Option Int
  tsamp : D
  tstart : D
  azStart : Option D
  zaStart : Option D
  dataType : Int
  nbits : Option Int
  nchans : Option Int
  nifs : Option Int

/-- `try { x = read_data_attr(…); } catch (std::invalid_argument &) {}`. -/
def optionally {α : Type} : Outcome α → Outcome (Option α)
  | .ok a => .ok (some a)
  | .throws .invalidArgument => .ok none
  | .throws e => .throws e
  | .ub => .ub

/-- `scan::scan(h5_filterbank_file, int)`, the attributes (bliss/core/scan.cpp lines 123-186). -/
def load (f : FileAttrs D) : Outcome (Members D) := do
  let fch1 ← f.fch1
  let foff ← f.foff
  let machineId ← optionally f.machineId
  let sourceName ← f.sourceName
  let srcDej ← f.srcDej
  let srcRaj ← f.srcRaj
  let telescopeId ← f.telescopeId
  let tsamp ← f.tsamp
  let tstart ← f.tstart
  let azStart ← optionally f.azStart
  let zaStart ← optionally f.zaStart
  let dataType ← optionally f.dataType
  let nbits ← optionally f.nbits
  let nchans ← optionally f.nchans
  let nifs ← optionally f.nifs
  pure ⟨fch1, foff, machineId, sourceName, some srcDej, some srcRaj, some telescopeId, tsamp, tstart,
    azStart, zaStart, dataType.getD 1, nbits, nchans, nifs⟩

/-- The getters and setters of a scan (bliss/core/scan.cpp lines 383-486). -/
inductive Field
  | fch1 | foff | machineId | nbits | nchans | nifs | sourceName | srcDej | srcRaj | telescopeId
  | tsamp | tstart | dataType | azStart | zaStart
  deriving DecidableEq, Repr

/-- The type of a field: `double`, `int64_t` or `std::string`. -/
@[reducible] def Field.Ty (D : Type) : Field → Type
  | .fch1 | .foff | .srcDej | .srcRaj | .tsamp | .tstart | .azStart | .zaStart => D
  | .machineId | .nbits | .nchans | .nifs | .telescopeId | .dataType => Int
  | .sourceName => String

/-- `std::optional::value`. -/
def value {α : Type} : Option α → Outcome α
  | some a => .ok a
  | none => .throws .badOptional

/-- Reading a number that may be uninitialised. -/
def initialised {α : Type} : Option α → Outcome α
  | some a => .ok a
  | none => .ub

/-- The getters (bliss/core/scan.cpp lines 383, 390, 397, 404, 411, 418, 425, 432, 439, 446, 453,
460, 467, 474, 481). -/
def Members.get (m : Members D) : (x : Field) → Outcome (x.Ty D)
  | .fch1 => .ok m.fch1
  | .foff => .ok m.foff
  | .machineId => value m.machineId
  | .nbits => initialised m.nbits
  | .nchans => initialised m.nchans
  | .nifs => initialised m.nifs
  | .sourceName => .ok m.sourceName
  | .srcDej => value m.srcDej
  | .srcRaj => value m.srcRaj
  | .telescopeId => value m.telescopeId
  | .tsamp => .ok m.tsamp
  | .tstart => .ok m.tstart
  | .dataType => .ok m.dataType
  | .azStart => value m.azStart
  | .zaStart => value m.zaStart

/-- The setters (bliss/core/scan.cpp lines 386, 393, 400, 407, 414, 421, 428, 435, 442, 449, 456,
463, 470, 477, 484). -/
def Members.set (m : Members D) : (x : Field) → x.Ty D → Members D
  | .fch1, v => { m with fch1 := v }
  | .foff, v => { m with foff := v }
  | .machineId, v => { m with machineId := some v }
  | .nbits, v => { m with nbits := some v }
  | .nchans, v => { m with nchans := some v }
  | .nifs, v => { m with nifs := some v }
  | .sourceName, v => { m with sourceName := v }
  | .srcDej, v => { m with srcDej := some v }
  | .srcRaj, v => { m with srcRaj := some v }
  | .telescopeId, v => { m with telescopeId := some v }
  | .tsamp, v => { m with tsamp := v }
  | .tstart, v => { m with tstart := v }
  | .dataType, v => { m with dataType := v }
  | .azStart, v => { m with azStart := some v }
  | .zaStart, v => { m with zaStart := some v }

/-- A sequence of setter calls. -/
def Members.sets (m : Members D) (h : List ((x : Field) × x.Ty D)) : Members D :=
  h.foldl (fun m s => m.set s.1 s.2) m

/-! ## Specification -/

/-- The attribute of the file that a getter is about. -/
def FileAttrs.attr (f : FileAttrs D) : (x : Field) → Outcome (x.Ty D)
  | .fch1 => f.fch1
  | .foff => f.foff
  | .machineId => f.machineId
  | .nbits => f.nbits
  | .nchans => f.nchans
  | .nifs => f.nifs
  | .sourceName => f.sourceName
  | .srcDej => f.srcDej
  | .srcRaj => f.srcRaj
  | .telescopeId => f.telescopeId
  | .tsamp => f.tsamp
  | .tstart => f.tstart
  | .dataType => f.dataType
  | .azStart => f.azStart
  | .zaStart => f.zaStart

/-- The value of the last call in `h` that sets `x`. -/
def lastSet (x : Field) : List ((x : Field) × x.Ty D) → Option (x.Ty D)
  | [] => none
  | ⟨y, v⟩ :: h =>
    match lastSet x h with
    | some w => some w
    | none => if e : y = x then some (e ▸ v) else none

/-- Attributes without which a scan cannot be opened. -/
def Required : Field → Bool
  | .fch1 | .foff | .sourceName | .srcDej | .srcRaj | .telescopeId | .tsamp | .tstart => true
  | _ => false

/-- What a getter does when the attribute is missing and was never set. -/
def unset : (x : Field) → Outcome (x.Ty D)
  | .dataType => .ok 1
  | .machineId => .throws .badOptional
  | .azStart => .throws .badOptional
  | .zaStart => .throws .badOptional
  | _ => .ub

theorem optionally_ok {α : Type} {x : Outcome α} {v : Option α} (h : optionally x = .ok v) :
    (∃ a, x = .ok a ∧ v = some a) ∨ (x = .throws .invalidArgument ∧ v = none) := by
  cases x with
  | ok a => cases h; exact Or.inl ⟨a, rfl, rfl⟩
  | throws e =>
    cases e with
    | invalidArgument => cases h; exact Or.inr ⟨rfl, rfl⟩
    | _ => cases h
  | ub => cases h

/-- **C135 (opening).** The attributes of a scan can be read if and only if the eight required ones
can, and each of the others can or is missing. -/
theorem C135_opens (f : FileAttrs D) : (∃ m, load f = .ok m) ↔
    ∀ x, (∃ v, f.attr x = .ok v) ∨ (Required x = false ∧ f.attr x = .throws .invalidArgument) := by
  constructor
  · rintro ⟨m, h⟩ x
    unfold load at h
    obtain ⟨f1, f2, f3, f4, f5, f6, f7, f8, f9, f10, f11, f12, f13, f14, f15⟩ := f
    have key : ∀ {α β : Type} {y : Outcome α} {k : α → Outcome β} {r : β},
        (y >>= k) = .ok r → ∃ a, y = .ok a ∧ k a = .ok r := by
      intro α β y k r h
      cases y with
      | ok a => exact ⟨a, rfl, h⟩
      | throws e => cases h
      | ub => cases h
    obtain ⟨_, h1, h⟩ := key h
    obtain ⟨_, h2, h⟩ := key h
    obtain ⟨_, h3, h⟩ := key h
    obtain ⟨_, h4, h⟩ := key h
    obtain ⟨_, h5, h⟩ := key h
    obtain ⟨_, h6, h⟩ := key h
    obtain ⟨_, h7, h⟩ := key h
    obtain ⟨_, h8, h⟩ := key h
    obtain ⟨_, h9, h⟩ := key h
    obtain ⟨_, h10, h⟩ := key h
    obtain ⟨_, h11, h⟩ := key h
    obtain ⟨_, h12, h⟩ := key h
    obtain ⟨_, h13, h⟩ := key h
    obtain ⟨_, h14, h⟩ := key h
    obtain ⟨_, h15, h⟩ := key h
    have opt : ∀ {α : Type} {y : Outcome α} {v : Option α}, optionally y = .ok v →
        (∃ a, y = .ok a) ∨ (false = false ∧ y = .throws .invalidArgument) := by
      intro α y v hy
      rcases optionally_ok hy with ⟨a, e, -⟩ | ⟨e, -⟩
      · exact Or.inl ⟨a, e⟩
      · exact Or.inr ⟨rfl, e⟩
    cases x
    · exact Or.inl ⟨_, h1⟩
    · exact Or.inl ⟨_, h2⟩
    · exact opt h3
    · exact opt h13
    · exact opt h14
    · exact opt h15
    · exact Or.inl ⟨_, h4⟩
    · exact Or.inl ⟨_, h5⟩
    · exact Or.inl ⟨_, h6⟩
    · exact Or.inl ⟨_, h7⟩
    · exact Or.inl ⟨_, h8⟩
    · exact Or.inl ⟨_, h9⟩
    · exact opt h12
    · exact opt h10
    · exact opt h11
  · intro h
    have req : ∀ x, Required x = true → ∃ v, f.attr x = .ok v := by
      intro x hx
      rcases h x with hv | ⟨hn, -⟩
      · exact hv
      · rw [hx] at hn; cases hn
    have opt : ∀ x, ∃ v, optionally (f.attr x) = .ok v := by
      intro x
      rcases h x with ⟨v, hv⟩ | ⟨-, hv⟩
      · exact ⟨some v, by rw [hv]; rfl⟩
      · exact ⟨none, by rw [hv]; rfl⟩
    obtain ⟨_, h1⟩ := req .fch1 rfl
    obtain ⟨_, h2⟩ := req .foff rfl
    obtain ⟨_, h3⟩ := opt .machineId
    obtain ⟨_, h4⟩ := req .sourceName rfl
    obtain ⟨_, h5⟩ := req .srcDej rfl
    obtain ⟨_, h6⟩ := req .srcRaj rfl
    obtain ⟨_, h7⟩ := req .telescopeId rfl
    obtain ⟨_, h8⟩ := req .tsamp rfl
    obtain ⟨_, h9⟩ := req .tstart rfl
    obtain ⟨_, h10⟩ := opt .azStart
    obtain ⟨_, h11⟩ := opt .zaStart
    obtain ⟨_, h12⟩ := opt .dataType
    obtain ⟨_, h13⟩ := opt .nbits
    obtain ⟨_, h14⟩ := opt .nchans
    obtain ⟨_, h15⟩ := opt .nifs
    simp only [FileAttrs.attr] at *
    unfold load
    rw [h1, h2, h3, h4, h5, h6, h7, h8, h9, h10, h11, h12, h13, h14, h15]
    exact ⟨_, rfl⟩

theorem get_set (m : Members D) (x y : Field) (v : y.Ty D) :
    (m.set y v).get x = if e : y = x then .ok (e ▸ v) else m.get x := by
  cases x <;> cases y <;> rfl

/-- **C135 (last write wins).** After any sequence of setter calls a getter reports the value set
last, and otherwise what it reported before; setting one field changes no other. -/
theorem C135_sets (m : Members D) (h : List ((x : Field) × x.Ty D)) (x : Field) :
    (m.sets h).get x = match lastSet x h with
      | some v => .ok v
      | none => m.get x := by
  induction h generalizing m with
  | nil => rfl
  | cons s h ih =>
    obtain ⟨y, v⟩ := s
    rw [show m.sets (⟨y, v⟩ :: h) = (m.set y v).sets h from rfl, ih]
    simp only [lastSet]
    cases lastSet x h with
    | some w => rfl
    | none =>
      simp only []
      rw [get_set]
      by_cases e : y = x
      · rw [dif_pos e, dif_pos e]
      · rw [dif_neg e, dif_neg e]

/-- **C135 (part).** What the getters of an opened scan report after any sequence of setter calls:
the value set last; otherwise the attribute of the file; otherwise 1 for `data_type`, an exception for
`machine_id`, `az_start` and `za_start`, and an uninitialised number for `nbits`, `nchans` and
`nifs`, which the property asks to be derived from the data. -/
theorem C135_reported_partial (f : FileAttrs D) (m : Members D) (hm : load f = .ok m)
    (h : List ((x : Field) × x.Ty D)) (x : Field) :
    (m.sets h).get x = match lastSet x h, f.attr x with
      | some v, _ => .ok v
      | none, .ok v => .ok v
      | none, _ => unset x := by
  rw [C135_sets]
  cases lastSet x h with
  | some w => rfl
  | none =>
    simp only []
    have hop := (C135_opens f).1 ⟨m, hm⟩
    have req : ∀ y, Required y = true → ∃ v, f.attr y = .ok v := by
      intro y hy
      rcases hop y with hv | ⟨hn, -⟩
      · exact hv
      · rw [hy] at hn; cases hn
    have opt : ∀ y, ∃ v, optionally (f.attr y) = .ok v := by
      intro y
      rcases hop y with ⟨v, hv⟩ | ⟨-, hv⟩
      · exact ⟨some v, by rw [hv]; rfl⟩
      · exact ⟨none, by rw [hv]; rfl⟩
    obtain ⟨_, h1⟩ := req .fch1 rfl
    obtain ⟨_, h2⟩ := req .foff rfl
    obtain ⟨_, h3⟩ := opt .machineId
    obtain ⟨_, h4⟩ := req .sourceName rfl
    obtain ⟨_, h5⟩ := req .srcDej rfl
    obtain ⟨_, h6⟩ := req .srcRaj rfl
    obtain ⟨_, h7⟩ := req .telescopeId rfl
    obtain ⟨_, h8⟩ := req .tsamp rfl
    obtain ⟨_, h9⟩ := req .tstart rfl
    obtain ⟨_, h10⟩ := opt .azStart
    obtain ⟨_, h11⟩ := opt .zaStart
    obtain ⟨_, h12⟩ := opt .dataType
    obtain ⟨_, h13⟩ := opt .nbits
    obtain ⟨_, h14⟩ := opt .nchans
    obtain ⟨_, h15⟩ := opt .nifs
    simp only [FileAttrs.attr] at h1 h2 h3 h4 h5 h6 h7 h8 h9 h10 h11 h12 h13 h14 h15
    unfold load at hm
    rw [h1, h2, h3, h4, h5, h6, h7, h8, h9, h10, h11, h12, h13, h14, h15] at hm
    simp only [Outcome.bind_ok, Outcome.pure_eq, Outcome.ok.injEq] at hm
    subst hm
    cases x <;> simp only [Members.get, FileAttrs.attr, h1, h2, h4, h5, h6, h7, h8, h9, value]
    · rcases optionally_ok h3 with ⟨a, e, rfl⟩ | ⟨e, rfl⟩ <;> rw [e] <;> rfl
    · rcases optionally_ok h13 with ⟨a, e, rfl⟩ | ⟨e, rfl⟩ <;> rw [e] <;> rfl
    · rcases optionally_ok h14 with ⟨a, e, rfl⟩ | ⟨e, rfl⟩ <;> rw [e] <;> rfl
    · rcases optionally_ok h15 with ⟨a, e, rfl⟩ | ⟨e, rfl⟩ <;> rw [e] <;> rfl
    · rcases optionally_ok h12 with ⟨a, e, rfl⟩ | ⟨e, rfl⟩ <;> rw [e] <;> rfl
    · rcases optionally_ok h10 with ⟨a, e, rfl⟩ | ⟨e, rfl⟩ <;> rw [e] <;> rfl
    · rcases optionally_ok h11 with ⟨a, e, rfl⟩ | ⟨e, rfl⟩ <;> rw [e] <;> rfl

/-! ## What the setters do not change -/

/-- The setters on a whole scan: they assign the member and nothing else
(bliss/core/scan.cpp lines 386-486). -/
def setField (s : Scan F D Dev P) : (x : Field) → x.Ty D → Scan F D Dev P
  | .fch1, v => { s with fch1 := v }
  | .foff, v => { s with hdr := { s.hdr with foff := v } }
  | .machineId, v => { s with hdr := { s.hdr with machineId := some v } }
  | .nbits, v => { s with hdr := { s.hdr with nbits := v } }
  | .nchans, v => { s with nchans := v }
  | .nifs, v => { s with hdr := { s.hdr with nifs := v } }
  | .sourceName, v => { s with hdr := { s.hdr with sourceName := v } }
  | .srcDej, v => { s with hdr := { s.hdr with srcDej := some v } }
  | .srcRaj, v => { s with hdr := { s.hdr with srcRaj := some v } }
  | .telescopeId, v => { s with hdr := { s.hdr with telescopeId := some v } }
  | .tsamp, v => { s with hdr := { s.hdr with tsamp := v } }
  | .tstart, v => { s with hdr := { s.hdr with tstart := v } }
  | .dataType, v => { s with hdr := { s.hdr with dataType := v } }
  | .azStart, v => { s with hdr := { s.hdr with azStart := some v } }
  | .zaStart, v => { s with hdr := { s.hdr with zaStart := some v } }

/-- A sequence of setter calls on a scan. -/
def setFields (s : Scan F D Dev P) (h : List ((x : Field) × x.Ty D)) : Scan F D Dev P :=
  h.foldl (fun s c => setField s c.1 c.2) s

/-- The metadata of a channel, as its getters report them
(bliss/core/coarse_channel.cpp lines 302-410). -/
def Channel.get (c : Channel F D Dev P) : (x : Field) → Outcome (x.Ty D)
  | .fch1 => .ok c.fch1
  | .foff => .ok c.hdr.foff
  | .machineId => value c.hdr.machineId
  | .nbits => .ok c.hdr.nbits
  | .nchans => .ok c.nchans
  | .nifs => .ok c.hdr.nifs
  | .sourceName => .ok c.hdr.sourceName
  | .srcDej => value c.hdr.srcDej
  | .srcRaj => value c.hdr.srcRaj
  | .telescopeId => value c.hdr.telescopeId
  | .tsamp => .ok c.hdr.tsamp
  | .tstart => .ok c.hdr.tstart
  | .dataType => .ok c.hdr.dataType
  | .azStart => value c.hdr.azStart
  | .zaStart => value c.hdr.zaStart

theorem setField_keeps (s : Scan F D Dev P) (x : Field) (v : x.Ty D) :
    (setField s x v).cache = s.cache ∧ (setField s x v).file = s.file ∧
    (setField s x v).pipeline = s.pipeline ∧ (setField s x v).fine = s.fine ∧
    (setField s x v).num = s.num ∧ (setField s x v).offset = s.offset ∧
    (setField s x v).ntsteps = s.ntsteps ∧ (setField s x v).duration = s.duration ∧
    (setField s x v).device = s.device := by
  cases x <;> exact ⟨rfl, rfl, rfl, rfl, rfl, rfl, rfl, rfl, rfl⟩

theorem setFields_keeps (s : Scan F D Dev P) (h : List ((x : Field) × x.Ty D)) :
    (setFields s h).cache = s.cache ∧ (setFields s h).file = s.file ∧
    (setFields s h).pipeline = s.pipeline ∧ (setFields s h).fine = s.fine ∧
    (setFields s h).num = s.num ∧ (setFields s h).offset = s.offset ∧
    (setFields s h).ntsteps = s.ntsteps ∧ (setFields s h).duration = s.duration ∧
    (setFields s h).device = s.device := by
  induction h generalizing s with
  | nil => exact ⟨rfl, rfl, rfl, rfl, rfl, rfl, rfl, rfl, rfl⟩
  | cons c h ih =>
    obtain ⟨a1, a2, a3, a4, a5, a6, a7, a8, a9⟩ := ih (setField s c.1 c.2)
    obtain ⟨b1, b2, b3, b4, b5, b6, b7, b8, b9⟩ := setField_keeps s c.1 c.2
    exact ⟨a1.trans b1, a2.trans b2, a3.trans b3, a4.trans b4, a5.trans b5, a6.trans b6, a7.trans b7,
      a8.trans b8, a9.trans b9⟩

/-- **C135 (channels in memory keep their metadata).** A channel that was read before the setters
were called is delivered as if they had not been called. -/
theorem C135_read_before (o : DOps D) (devOk : Dev → Bool) (s : Scan F D Dev P) (i : Int)
    (hin : (s.cache (i + s.offset)).isSome = true) (h : List ((x : Field) × x.Ty D)) :
    (read o devOk (setFields s h) i).2 = (read o devOk s i).2 := by
  obtain ⟨a1, a2, a3, a4, a5, a6, a7, a8, a9⟩ := setFields_keeps s h
  unfold read
  rw [a1, a5, a6]
  obtain ⟨c, hc⟩ := Option.isSome_iff_exists.1 hin
  rw [hc]
  by_cases hr : i < 0 ∨ i > s.num
  · rw [if_pos hr, if_pos hr]
  · rw [if_neg hr, if_neg hr]
    simp only [finish, a3, a9]
    cases Channel.setDevice devOk s.device c <;> rfl

/-- **C135 (channels read later have the new metadata).** A channel that was not read before the
setters were called has, before the transforms, the metadata set: every field but the channel count,
which is that of a coarse channel, and the first frequency, which is that of the scan plus the offset
of the channel. -/
theorem C135_read_after (o : DOps D) (devOk : Dev → Bool) (s : Scan F D Dev P) (i : Int)
    (h : List ((x : Field) × x.Ty D)) (c : Channel F D Dev P)
    (hc : fresh o devOk (setFields s h) i = .ok c) (x : Field) (hx : x ≠ .nchans) (hf : x ≠ .fch1)
    (v : x.Ty D) (hv : lastSet x h = some v) : c.get x = .ok v := by
  have hhdr : c.hdr = (setFields s h).hdr := by
    unfold fresh at hc
    cases hfile : (setFields s h).file with
    | none => rw [hfile] at hc; cases hc
    | some shape =>
      rw [hfile] at hc
      simp only [] at hc
      cases shape with
      | throws e => cases hc
      | ub => cases hc
      | ok count =>
        simp only [Outcome.bind_ok] at hc
        match count, hc with
        | [], hc => cases hc
        | [_], hc => cases hc
        | [_, _], hc => cases hc
        | t :: g :: _ :: rest, hc =>
          simp only [] at hc
          split at hc
          · unfold Channel.setDevice at hc
            split at hc
            · cases hc; rfl
            · cases hc
          · cases hc
  have key : ∀ (s : Scan F D Dev P) (c : Channel F D Dev P), c.hdr = (setFields s h).hdr →
      c.get x = .ok v := by
    clear hc hhdr c s
    intro s c hhdr
    induction h generalizing s with
    | nil => cases hv
    | cons d h ih =>
      obtain ⟨y, w⟩ := d
      simp only [lastSet] at hv
      cases hl : lastSet x h with
      | some u =>
        rw [hl] at hv
        simp only [Option.some.injEq] at hv
        subst hv
        exact ih hl (setField s y w) hhdr
      | none =>
        rw [hl] at hv
        simp only [] at hv
        split at hv
        · rename_i e
          subst e
          simp only [Option.some.injEq] at hv
          subst hv
          have hlater : ∀ (s s' : Scan F D Dev P) (c c' : Channel F D Dev P) (k : List ((x : Field) × x.Ty D)),
              lastSet y k = none → c'.hdr = s.hdr → c.hdr = (setFields s k).hdr →
              c.get y = c'.get y := by
            intro s s' c c' k hk hc' hc
            induction k generalizing s c' with
            | nil => cases y <;> simp_all [Channel.get, setFields]
            | cons d k ihk =>
              obtain ⟨z, u⟩ := d
              simp only [lastSet] at hk
              cases hl : lastSet y k with
              | some q => rw [hl] at hk; cases hk
              | none =>
                rw [hl] at hk
                simp only [] at hk
                split at hk
                · cases hk
                · rename_i hne
                  rw [ihk (setField s z u) { c' with hdr := (setField s z u).hdr } hl rfl hc]
                  cases y <;> cases z <;> simp_all [Channel.get, setField]
          rw [hlater (setField s y w) s c { c with hdr := (setField s y w).hdr } h hl rfl hhdr]
          cases y <;> first | rfl | exact absurd rfl hx | exact absurd rfl hf
        · cases hv
  exact key s c hhdr

/-- **C135 is violated: the duration.** Setting the sampling time of an opened scan does not change
its duration, which then is not the number of spectra times the sampling time. -/
theorem C135_stale_duration (dev : Dev) (a : Attrs ℚ) (shape : Outcome (List Int)) (fine : Int)
    (s : Scan F ℚ Dev P) (hs : openFile ratOps dev a shape fine = .ok s) (v : ℚ)
    (hv : v ≠ s.hdr.tsamp) (ht : s.ntsteps ≠ 0) :
    s.duration = s.ntsteps * s.hdr.tsamp ∧
      (setField s .tsamp v).duration ≠ (setField s .tsamp v).ntsteps * (setField s .tsamp v).hdr.tsamp := by
  have hd : s.duration = s.ntsteps * s.hdr.tsamp := by
    unfold openFile at hs
    cases hn : a.nchans with
    | none => rw [hn] at hs; cases hs
    | some n =>
      rw [hn] at hs
      simp only [] at hs
      cases shape with
      | throws e => cases hs
      | ub => cases hs
      | ok dims =>
        simp only [Outcome.bind_ok] at hs
        match dims, hs with
        | [], hs => cases hs
        | [_], hs => cases hs
        | [_, _], hs => cases hs
        | _ :: _ :: _ :: _ :: _, hs => cases hs
        | [t, _, _], hs =>
          simp only [] at hs
          by_cases hf : fine = 0
          · rw [if_pos hf] at hs
            cases hi : infer ratOps n (ratOps.mul (ratOps.lit 1000000) a.hdr.foff) a.hdr.tsamp with
            | throws e => rw [hi] at hs; cases hs
            | ub => rw [hi] at hs; cases hs
            | ok p =>
              rw [hi] at hs
              simp only [Outcome.bind_ok, Outcome.pure_eq, Outcome.ok.injEq] at hs
              subst hs
              rfl
          · rw [if_neg hf] at hs
            simp only [Outcome.pure_eq, Outcome.ok.injEq] at hs
            subst hs
            rfl
  refine ⟨hd, ?_⟩
  intro h
  have h' : s.duration = (s.ntsteps : ℚ) * v := h
  rw [hd] at h'
  exact hv (mul_left_cancel₀ (by exact_mod_cast ht) h').symm

/-- **C135 is violated: the number of channels.** After setting the channel count, looking up the
frequency of a channel of the file finds another channel, because the number of coarse channels and
their width stay as they were. -/
theorem C135_stale_channels : (∃ c, (read ratOps id exScan 2).2 = .ok c ∧
    channelWithFrequency ratOps exScan c.fch1 = 2 ∧
    channelWithFrequency ratOps (setField exScan .nchans 24) c.fch1 = 1 ∧
    (setField exScan .nchans 24).num = exScan.num) :=
  ⟨_, rfl, by decide +kernel, by decide +kernel, rfl⟩

/-! ## A concrete case -/

/-- A file without the optional attributes but `nchans`. -/
def exAttrs : FileAttrs ℚ where
  fch1 := .ok 8400
  foff := .ok (-1 / 4)
  machineId := .throws .invalidArgument
  sourceName := .ok "Voyager1"
  srcDej := .ok 12
  srcRaj := .ok 17
  telescopeId := .ok 6
  tsamp := .ok 18
  tstart := .ok 57650
  azStart := .throws .invalidArgument
  zaStart := .throws .invalidArgument
  dataType := .throws .invalidArgument
  nbits := .throws .invalidArgument
  nchans := .ok 12
  nifs := .throws .invalidArgument

/-- It opens; the number of feeds is undefined, the machine throws, a source name set twice is the
second one. -/
example : ∃ m, load exAttrs = .ok m ∧ m.get .nifs = .ub ∧ m.get .machineId = .throws .badOptional ∧
    m.get .dataType = .ok 1 ∧ m.get .nchans = .ok 12 ∧
    (m.sets [⟨.sourceName, "a"⟩, ⟨.sourceName, "b"⟩, ⟨.nifs, 1⟩]).get .sourceName = .ok "b" :=
  ⟨_, rfl, rfl, rfl, rfl, rfl, rfl⟩

/-- A channel read after the source was renamed has the new name. -/
example : ∃ c, fresh ratOps id (setFields exScan [⟨.sourceName, "a"⟩]) 1 = .ok c ∧
    c.get .sourceName = .ok "a" :=
  ⟨_, rfl, rfl⟩

/-- The hypotheses of `C135_stale_duration` are met. -/
example : (setField exScan .tsamp 1).duration ≠
    (setField exScan .tsamp 1).ntsteps * (setField exScan .tsamp 1).hdr.tsamp :=
  (C135_stale_duration _ _ _ _ _ exScan_opened 1 (by decide +kernel) (by decide +kernel)).2

end Bliss.Scan
