import Verif.File.Model
import Verif.Float.Rounding
import Mathlib.Data.List.Basic

/-!
# Properties of hit serialization (C21, C37, C39, C40, C41)
-/

namespace Bliss.File

open Bliss Bliss.Hit Bliss.Float

variable {F D : Type}

/-- What holds of the conversions on every IEEE platform: going from `float` to `double` and back is
the identity, and integers of up to 24 bits survive a trip through `float`. -/
structure Conv.Lawful (C : Conv F D) : Prop where
  back : ∀ x, C.toF (C.toD x) = x
  int : ∀ n : Int, |n| ≤ 2 ^ 24 → C.toInt (C.ofInt n) = .ok n

/-- Integers up to 2^24 survive a trip through `float`. -/
def Conv.Ints (C : Conv F D) : Prop := ∀ n : Int, |n| ≤ 2 ^ 24 → C.toInt (C.ofInt n) = .ok n

/-- The value of the double survives a trip through `float`. -/
def Conv.Narrow (C : Conv F D) (x : D) : Prop := C.toD (C.toF x) = x

/-! ## C21 -/

/-- **C21, partial.** For hits spanning at most 2^24 time steps, storing the state of `h` into a hit
object `g` gives back `h` exactly when the three doubles in the tuple fit a `float` and `g` already
had `h`'s start time, duration, flag counts and coarse channel. Missing: the claim for all hits,
which the other direction of this theorem refutes (`C21_two_hits_same_state`). -/
theorem C21_state_round_trip_partial {C : Conv F D} (hC : C.Lawful) (g h : Hit F D)
    (hs : |h.timeSpan| ≤ 2 ^ 24) :
    setState C g (getState C h) = .ok h ↔
      C.Narrow h.startFreqMHz ∧ C.Narrow h.driftRate ∧ C.Narrow h.power ∧
        g.startTime = h.startTime ∧ g.duration = h.duration ∧ g.rfi = h.rfi ∧
        g.coarseChannel = h.coarseChannel := by
  unfold setState getState Conv.Narrow
  rw [hC.int _ hs, hC.back]
  simp only [Outcome.bind_ok, Outcome.pure_eq, Outcome.ok.injEq]
  obtain ⟨a1, a2, a3, a4, a5, a6, a7, a8, a9, a10, a11, a12, a13⟩ := h
  simp only [Hit.mk.injEq, true_and, and_true]
  constructor
  · rintro ⟨h1, h2, h3, h4, h5, h6, h7⟩; exact ⟨h1, h4, h5, h2, h3, h6, h7⟩
  · rintro ⟨h1, h2, h3, h4, h5, h6, h7⟩; exact ⟨h1, h4, h5, h2, h3, h6, h7⟩

/-- The fields of the tuple that are not narrowed are always restored. -/
theorem C21_kept {C : Conv F D} (hC : C.Lawful) (g h : Hit F D) (hs : |h.timeSpan| ≤ 2 ^ 24) :
    ∃ h', setState C g (getState C h) = .ok h' ∧ h'.startFreqIndex = h.startFreqIndex ∧
      h'.rateIndex = h.rateIndex ∧ h'.timeSpan = h.timeSpan ∧ h'.snr = h.snr ∧
      h'.bandwidth = h.bandwidth ∧ h'.binwidth = h.binwidth := by
  unfold setState getState
  rw [hC.int _ hs, hC.back]
  exact ⟨_, rfl, rfl, rfl, rfl, rfl, rfl, rfl⟩

/-- Nothing more is lost on a second trip: a hit that came out of `set_state` is restored exactly
into itself. -/
theorem C21_second_trip {C : Conv F D} (hC : C.Lawful) {g h h' : Hit F D}
    (hs : |h.timeSpan| ≤ 2 ^ 24) (h1 : setState C g (getState C h) = .ok h') :
    setState C h' (getState C h') = .ok h' := by
  unfold setState getState at h1
  rw [hC.int _ hs, hC.back] at h1
  simp only [Outcome.bind_ok, Outcome.pure_eq, Outcome.ok.injEq] at h1
  subst h1
  refine (C21_state_round_trip_partial hC _ { h with
    startFreqMHz := C.toD (C.toF h.startFreqMHz), startTime := g.startTime, duration := g.duration,
    driftRate := C.toD (C.toF h.driftRate), power := C.toD (C.toF h.power), rfi := g.rfi,
    coarseChannel := g.coarseChannel } hs).2 ?_
  refine ⟨?_, ?_, ?_, rfl, rfl, rfl, rfl⟩ <;>
  · unfold Conv.Narrow
    simp only [hC.back]

/-! ## C37 -/

/-- The value fits a 32-bit integer. -/
def Fits32 (n : Int) : Prop := -(2 ^ 31) ≤ n ∧ n < 2 ^ 31

theorem wrap32_eq_iff (n : Int) : wrap32 n = n ↔ Fits32 n := by
  unfold wrap32 Fits32
  constructor
  · intro h
    have h1 := Int.emod_nonneg (n + 2 ^ 31) (by norm_num : (2 ^ 32 : Int) ≠ 0)
    have h2 := Int.emod_lt_of_pos (n + 2 ^ 31) (by norm_num : (0 : Int) < 2 ^ 32)
    norm_num at *
    omega
  · intro h
    rw [Int.emod_eq_of_lt (by omega) (by omega)]
    omega

theorem wrap32_fits (n : Int) : Fits32 (wrap32 n) := by
  unfold wrap32 Fits32
  have h1 := Int.emod_nonneg (n + 2 ^ 31) (by norm_num : (2 ^ 32 : Int) ≠ 0)
  have h2 := Int.emod_lt_of_pos (n + 2 ^ 31) (by norm_num : (0 : Int) < 2 ^ 32)
  norm_num at *
  omega

/-- The hits that survive serialization: indices that fit 32 bits, power and times that fit a
`float`, and no recorded flag counts. -/
structure Storable (C : Conv F D) (h : Hit F D) : Prop where
  index : Fits32 h.startFreqIndex
  rate : Fits32 h.rateIndex
  span : Fits32 h.timeSpan
  power : C.Narrow h.power
  start : C.Narrow h.startTime
  duration : C.Narrow h.duration
  rfi : h.rfi = []

/-- **C37, partial.** For hits of at most 2^24 bins, a hit written to a message and read back is
the same hit (apart from the coarse channel number, which is not stored and reads back as 0)
exactly when it is `Storable`. Missing: the claim for all hits, which the other direction refutes
(`C37_start_time_lost`). -/
theorem C37_hit_round_trip_partial {C : Conv F D} (hC : C.Lawful) (h : Hit F D)
    (hb : |h.binwidth| ≤ 2 ^ 24) :
    ofSignal C (toSignal C h) = .ok { h with coarseChannel := 0 } ↔ Storable C h := by
  unfold ofSignal toSignal
  dsimp only
  rw [hC.int _ hb]
  simp only [Outcome.bind_ok, Outcome.pure_eq, Outcome.ok.injEq, Hit.mk.injEq, true_and, and_true,
    wrap32_eq_iff]
  constructor
  · rintro ⟨h1, h2, h3, h4, h5, h6, h7⟩; exact ⟨h1, h4, h6, h5, h2, h3, h7.symm⟩
  · rintro ⟨h1, h2, h3, h4, h5, h6, h7⟩; exact ⟨h1, h5, h6, h2, h4, h3, h7.symm⟩

/-- A hit as it comes back from a file: indices reduced to 32 bits, power and times rounded to
`float`, no flag counts, coarse channel 0. Everything else is as it was. -/
def stored (C : Conv F D) (h : Hit F D) : Hit F D :=
  { h with
    startFreqIndex := wrap32 h.startFreqIndex
    rateIndex := wrap32 h.rateIndex
    timeSpan := wrap32 h.timeSpan
    power := C.toD (C.toF h.power)
    startTime := C.toD (C.toF h.startTime)
    duration := C.toD (C.toF h.duration)
    rfi := []
    coarseChannel := 0 }

/-- **C37, every hit.** What comes back of any hit of at most 2^24 bins, storable or not. -/
theorem C37_returned {C : Conv F D} (hC : C.Ints) (h : Hit F D) (hb : |h.binwidth| ≤ 2 ^ 24) :
    ofSignal C (toSignal C h) = .ok (stored C h) := by
  unfold ofSignal toSignal stored
  dsimp only
  rw [hC _ hb]
  rfl

theorem stored_eq {C : Conv F D} {h : Hit F D} (hs : Storable C h) :
    stored C h = { h with coarseChannel := 0 } := by
  obtain ⟨h1, h2, h3, h4, h5, h6, h7⟩ := hs
  unfold stored
  rw [(wrap32_eq_iff _).2 h1, (wrap32_eq_iff _).2 h2, (wrap32_eq_iff _).2 h3, h4, h5, h6, ← h7]

/-- The fields that always survive. -/
theorem C37_kept {C : Conv F D} {h h' : Hit F D} (h1 : ofSignal C (toSignal C h) = .ok h') :
    h'.startFreqMHz = h.startFreqMHz ∧ h'.driftRate = h.driftRate ∧ h'.snr = h.snr ∧
      h'.bandwidth = h.bandwidth := by
  unfold ofSignal toSignal at h1
  dsimp only at h1
  cases hw : C.toInt (C.ofInt h.binwidth) with
  | throws e => simp [hw] at h1
  | ub => simp [hw] at h1
  | ok w =>
    simp [hw] at h1
    subst h1
    exact ⟨rfl, rfl, rfl, rfl⟩

/-- A second trip loses nothing more: whatever was read can be written and read again unchanged. -/
theorem C37_second_trip {C : Conv F D} (hC : C.Lawful) {h h' : Hit F D}
    (hb : |h.binwidth| ≤ 2 ^ 24) (h1 : ofSignal C (toSignal C h) = .ok h') :
    ofSignal C (toSignal C h') = .ok h' := by
  have h0 : ∃ w, h' = { h with
      startFreqIndex := wrap32 h.startFreqIndex, rateIndex := wrap32 h.rateIndex,
      timeSpan := wrap32 h.timeSpan, power := C.toD (C.toF h.power),
      startTime := C.toD (C.toF h.startTime), duration := C.toD (C.toF h.duration),
      binwidth := w, rfi := [], coarseChannel := 0 } ∧ w = h.binwidth := by
    unfold ofSignal toSignal at h1
    dsimp only at h1
    rw [hC.int _ hb] at h1
    simp only [Outcome.bind_ok, Outcome.pure_eq, Outcome.ok.injEq] at h1
    exact ⟨_, h1.symm, rfl⟩
  obtain ⟨w, rfl, rfl⟩ := h0
  refine (C37_hit_round_trip_partial hC { h with
      startFreqIndex := wrap32 h.startFreqIndex, rateIndex := wrap32 h.rateIndex,
      timeSpan := wrap32 h.timeSpan, power := C.toD (C.toF h.power),
      startTime := C.toD (C.toF h.startTime), duration := C.toD (C.toF h.duration),
      rfi := [], coarseChannel := 0 } hb).2 ?_
  constructor <;> simp [wrap32_fits, Conv.Narrow, hC.back]

/-! ## C39 -/

/-- What the files rely on in Cap'n Proto's stream format, for the messages that the format can
represent: a message reads back, followed by whatever comes after it; a message that is cut short does
not read at all, and neither does the end of the file. `Capnp.framing_lawful` shows this of the actual
format of hits files. -/
structure Framing.LawfulOn {M : Type} (fr : Framing M) (valid : M → Prop) : Prop where
  nonempty : ∀ m, valid m → fr.encode m ≠ []
  decode : ∀ m, valid m → ∀ rest, fr.decode (fr.encode m ++ rest) = some (m, rest)
  truncated : ∀ m, valid m → ∀ bytes, bytes <+: fr.encode m → bytes ≠ fr.encode m →
    fr.decode bytes = none
  empty : fr.decode [] = none

/-- The integers of a signal fit the 32 bits they have in a message. -/
structure Signal.Fits (s : Signal F D) : Prop where
  index : Fits32 s.index
  steps : Fits32 s.driftSteps
  drift : Fits32 s.driftIndex
  span : Fits32 s.numTimesteps

theorem toSignal_fits (C : Conv F D) (h : Hit F D) : (toSignal C h).Fits :=
  ⟨wrap32_fits _, wrap32_fits _, wrap32_fits _, wrap32_fits _⟩

theorem readLoop_truncated {M A : Type} {fr : Framing M} {valid : M → Prop} (hf : fr.LawfulOn valid)
    (conv : M → Outcome A) (ms : List M) (hms : ∀ m ∈ ms, valid m) (k n : Nat) (hn : k ≤ n) :
    ∃ j ≤ ms.length, (writeAll fr (ms.take j)).length ≤ k ∧
      (j < ms.length → k < (writeAll fr (ms.take (j + 1))).length) ∧
      readLoop fr conv n ((writeAll fr ms).take k) = mapAll conv (ms.take j) := by
  induction ms generalizing k n with
  | nil =>
    refine ⟨0, by simp, by simp [writeAll], by simp, ?_⟩
    cases n with
    | zero => simp [readLoop, mapAll]
    | succ n =>
      -- the empty file
      simp only [writeAll, List.flatMap_nil, List.take_nil, readLoop, mapAll, hf.empty]
  | cons m ms ih =>
    have hm : valid m := hms m (by simp)
    replace ih := ih fun m' h' => hms m' (by simp [h'])
    have hpos : 0 < (fr.encode m).length := List.length_pos_iff.2 (hf.nonempty m hm)
    by_cases hk : (fr.encode m).length ≤ k
    · obtain ⟨j, hj, h1, h2, h3⟩ := ih (k - (fr.encode m).length) (n - 1) (by omega)
      refine ⟨j + 1, by simp [hj], ?_, ?_, ?_⟩
      · simp only [writeAll, List.take_succ_cons, List.flatMap_cons, List.length_append] at h1 ⊢
        omega
      · intro hlt
        have := h2 (by simpa using hlt)
        simp only [writeAll, List.take_succ_cons, List.flatMap_cons, List.length_append] at this ⊢
        omega
      · have hsplit : (writeAll fr (m :: ms)).take k =
            fr.encode m ++ (writeAll fr ms).take (k - (fr.encode m).length) := by
          simp only [writeAll, List.flatMap_cons]
          rw [List.take_append, List.take_of_length_le hk]
        obtain ⟨n', rfl⟩ : ∃ n', n = n' + 1 := ⟨n - 1, by omega⟩
        rw [hsplit]
        simp only [readLoop, hf.decode m hm, List.take_succ_cons, mapAll]
        rw [show n' + 1 - 1 = n' by omega] at h3
        rw [h3]
    · refine ⟨0, by simp, by simp [writeAll], ?_, ?_⟩
      · intro _
        simp only [writeAll, List.take_succ_cons, List.take_zero, List.flatMap_cons,
          List.flatMap_nil, List.append_nil]
        omega
      · have hsplit : (writeAll fr (m :: ms)).take k = (fr.encode m).take k := by
          simp only [writeAll, List.flatMap_cons]
          rw [List.take_append, show k - (fr.encode m).length = 0 by omega]
          simp
        have hdec : fr.decode ((fr.encode m).take k) = none := by
          refine hf.truncated m hm _ (List.take_prefix _ _) ?_
          intro h
          have := congrArg List.length h
          rw [List.length_take] at this
          omega
        rw [hsplit]
        cases n with
        | zero => simp [readLoop, mapAll]
        | succ n => simp [readLoop, mapAll, hdec]

/-- **C39, reading after any truncation.** Cut the file of a list of hits after any number `k` of
bytes: reading returns the round trips (C37) of exactly those leading hits whose messages lie
completely within the first `k` bytes. -/
theorem C39_truncated_file {C : Conv F D} {fr : Framing (Signal F D)}
    (hf : fr.LawfulOn Signal.Fits)
    (hs : List (Hit F D)) (k : Nat) :
    ∃ j ≤ hs.length, (writeHits C fr (hs.take j)).length ≤ k ∧
      (j < hs.length → k < (writeHits C fr (hs.take (j + 1))).length) ∧
      readHits C fr ((writeHits C fr hs).take k) =
        mapAll (fun h => ofSignal C (toSignal C h)) (hs.take j) := by
  -- cut at most at the end
  have hmin : (writeHits C fr hs).take k =
      (writeHits C fr hs).take (min k (writeHits C fr hs).length) := by
    rcases Nat.le_total k (writeHits C fr hs).length with h | h
    · rw [Nat.min_eq_left h]
    · rw [Nat.min_eq_right h, List.take_of_length_le h, List.take_of_length_le le_rfl]
  have hmap : ∀ l : List (Hit F D), mapAll (ofSignal C) (l.map (toSignal C)) =
      mapAll (fun h => ofSignal C (toSignal C h)) l := by
    intro l
    induction l with
    | nil => rfl
    | cons a l ih => simp only [List.map_cons, mapAll, ih]
  obtain ⟨j, hj, h1, h2, h3⟩ := readLoop_truncated hf (ofSignal C) (hs.map (toSignal C))
    (fun m hm => by
      obtain ⟨h, _, rfl⟩ := List.mem_map.1 hm
      exact toSignal_fits C h)
    (min k (writeHits C fr hs).length) ((writeHits C fr hs).take k).length
    (by rw [List.length_take])
  rw [List.length_map] at hj h2
  refine ⟨j, hj, ?_, ?_, ?_⟩
  · simp only [writeHits, List.map_take] at h1 ⊢
    omega
  · intro hlt
    have h4 := h2 hlt
    have h5 : (writeHits C fr (hs.take (j + 1))).length ≤ (writeHits C fr hs).length := by
      have : hs = hs.take (j + 1) ++ hs.drop (j + 1) := (List.take_append_drop _ _).symm
      conv_rhs => rw [this]
      simp only [writeHits, writeAll, List.map_append, List.flatMap_append, List.length_append]
      omega
    simp only [writeHits, List.map_take] at h4 h5 ⊢
    omega
  · unfold readHits
    rw [hmin] at h3 ⊢
    simp only [writeHits] at h3 ⊢
    rw [h3, ← List.map_take, hmap]

theorem mapAll_ok {A B : Type} {f : A → Outcome B} {g : A → B} {l : List A}
    (h : ∀ a ∈ l, f a = .ok (g a)) : mapAll f l = .ok (l.map g) := by
  induction l with
  | nil => rfl
  | cons a l ih =>
    simp only [mapAll, List.map_cons]
    rw [h a (by simp), ih (fun b hb => h b (by simp [hb]))]
    rfl

/-- **C39, partial.** Reading the file of a list of hits, cut after any number of bytes, gives a
prefix of the list, every hit as a file returns it (`stored`), and the whole list when nothing is
cut. Missing: that hits come back unaltered, which `C37_hit_round_trip_partial` shows of exactly the
`Storable` ones. -/
theorem C39_truncation_partial {C : Conv F D} (hC : C.Lawful) {fr : Framing (Signal F D)}
    (hf : fr.LawfulOn Signal.Fits) (hs : List (Hit F D))
    (hst : ∀ h ∈ hs, |h.binwidth| ≤ 2 ^ 24) (k : Nat) :
    ∃ j ≤ hs.length,
      readHits C fr ((writeHits C fr hs).take k) = .ok ((hs.take j).map (stored C)) ∧
      ((writeHits C fr hs).length ≤ k → j = hs.length) := by
  obtain ⟨j, hj, h1, h2, h3⟩ := C39_truncated_file (C := C) hf hs k
  refine ⟨j, hj, ?_, ?_⟩
  · rw [h3]
    refine mapAll_ok ?_
    intro h hh
    exact C37_returned hC.int h (hst h (List.mem_of_mem_take hh))
  · intro hk
    by_contra hne
    have hlt : j < hs.length := by omega
    have h4 := h2 hlt
    have h5 : (writeHits C fr (hs.take (j + 1))).length ≤ (writeHits C fr hs).length := by
      have : hs = hs.take (j + 1) ++ hs.drop (j + 1) := (List.take_append_drop _ _).symm
      conv_rhs => rw [this]
      simp only [writeHits, writeAll, List.map_append, List.flatMap_append, List.length_append]
      omega
    omega

/-! ## C40 -/

/-- **C40, partial.** Reading an events file gives one event per written event, in order, with its
hits in order, each as a file returns it (`stored`). Missing: the averages, the starting frequency and the time extent,
which are not stored and read back as zero (also shown here). -/
theorem C40_events_round_trip_partial {C : Conv F D} (hC : C.Lawful) (zF : F) (zD : D)
    {fr : Framing (List (Signal F D))} (hf : fr.LawfulOn fun m => ∀ s ∈ m, s.Fits)
    (es : List (Event F D))
    (hst : ∀ e ∈ es, ∀ h ∈ e.hits, |h.binwidth| ≤ 2 ^ 24) :
    readEvents C zF zD fr (writeEvents C fr es) =
      .ok (es.map fun e => ⟨e.hits.map (stored C), zD, zF, zF, zF, zD, zD, zD⟩) := by
  obtain ⟨j, hj, h1, h2, h3⟩ := readLoop_truncated hf (ofEventMessage C zF zD)
    (es.map (fun e => e.hits.map (toSignal C)))
    (fun m hm => by
      obtain ⟨e, _, rfl⟩ := List.mem_map.1 hm
      intro s hs
      obtain ⟨h, _, rfl⟩ := List.mem_map.1 hs
      exact toSignal_fits C h)
    (writeEvents C fr es).length
    (writeEvents C fr es).length le_rfl
  have hjl : j = es.length := by
    rw [List.length_map] at hj h2
    by_contra hne
    have h4 := h2 (by omega)
    have h5 : (writeAll fr ((es.map (fun e => e.hits.map (toSignal C))).take (j + 1))).length ≤
        (writeEvents C fr es).length := by
      have : es = es.take (j + 1) ++ es.drop (j + 1) := (List.take_append_drop _ _).symm
      conv_rhs => rw [this]
      simp only [writeEvents, writeAll, List.map_append, List.flatMap_append, List.length_append,
        List.map_take]
      omega
    omega
  unfold readEvents
  rw [List.take_of_length_le (by simp [writeEvents])] at h3
  change readLoop fr _ _ (writeAll fr _) = _
  rw [h3, hjl, List.take_of_length_le (by simp)]
  have hmap : ∀ (f : List (Signal F D) → Outcome (Event F D)) (l : List (Event F D)),
      mapAll f (l.map (fun e => e.hits.map (toSignal C))) =
      mapAll (fun e => f (e.hits.map (toSignal C))) l := by
    intro f l
    induction l with
    | nil => rfl
    | cons a l ih => simp only [List.map_cons, mapAll, ih]
  rw [hmap]
  refine mapAll_ok ?_
  intro e he
  unfold ofEventMessage
  have : mapAll (ofSignal C) (e.hits.map (toSignal C)) =
      .ok (e.hits.map (stored C)) := by
    have hm2 : ∀ l : List (Hit F D), mapAll (ofSignal C) (l.map (toSignal C)) =
        mapAll (fun h => ofSignal C (toSignal C h)) l := by
      intro l
      induction l with
      | nil => rfl
      | cons a l ih => simp only [List.map_cons, mapAll, ih]
    rw [hm2]
    refine mapAll_ok ?_
    intro h hh
    exact C37_returned hC.int h (hst e he h hh)
  rw [this]
  rfl

/-! ## C41 -/

theorem endsWith_iff (path suffix : List Char) :
    endsWith path suffix = true ↔ ∃ stem, path = stem ++ suffix := by
  unfold endsWith
  rw [Bool.and_eq_true, decide_eq_true_eq, decide_eq_true_eq]
  constructor
  · rintro ⟨_, h⟩
    refine ⟨path.take (path.length - suffix.length), ?_⟩
    conv_lhs => rw [← List.take_append_drop (path.length - suffix.length) path]
    rw [h]
  · rintro ⟨stem, rfl⟩
    simp

/-- Which format is written. -/
theorem writeFormat_dat_iff (path format : List Char) :
    writeFormat path format = .dat ↔
      format = "dat".toList ∨ (format = [] ∧ ∃ stem, path = stem ++ ".dat".toList) := by
  rw [← endsWith_iff]
  unfold writeFormat inferFormat
  by_cases h1 : format = []
  · subst h1
    have hn : ¬(([] : List Char) = "dat".toList) := by decide
    by_cases h2 : endsWith path ".dat".toList = true
    · rw [if_pos rfl, if_pos h2]
      exact ⟨fun _ => Or.inr ⟨rfl, h2⟩, fun _ => if_pos rfl⟩
    · rw [if_pos rfl, if_neg h2]
      simp only [hn, true_and, false_or]
      refine ⟨fun h => ?_, fun h => absurd h h2⟩
      exfalso
      split at h
      · revert h; decide
      · revert h; decide
  · rw [if_neg h1]
    dsimp only
    constructor
    · intro h
      split at h
      · rename_i h2; exact Or.inl h2
      · split at h <;> cases h
    · rintro (h | h)
      · rw [if_pos h]
      · exact absurd h.1 h1

/-- **C41, partial.** Exactly for the format `"capnp"`, or an empty format and a path that does not
end in `.dat`, the reader looks for the format that the writer has written. Missing: all other
format strings and paths, where reading throws or misinterprets the file (the other direction). -/
theorem C41_formats_agree_partial (path format : List Char) :
    readFormat path format = .ok (writeFormat path format) ↔
      format = "capnp".toList ∨ (format = [] ∧ ¬∃ stem, path = stem ++ ".dat".toList) := by
  have hw := writeFormat_dat_iff path format
  have hcases : writeFormat path format = .dat ∨ writeFormat path format = .capnp := by
    cases writeFormat path format <;> simp
  unfold readFormat
  constructor
  · intro h
    split at h
    · rename_i h1
      rcases h1 with h1 | h1
      · refine Or.inr ⟨h1, fun h2 => ?_⟩
        rw [hw.2 (Or.inr ⟨h1, h2⟩)] at h
        cases h
      · exact Or.inl h1
    · split at h <;> cases h
  · intro h
    have hnd : writeFormat path format ≠ .dat := by
      intro hd
      rcases hw.1 hd with h1 | h1
      · rcases h with h2 | h2
        · rw [h2] at h1; exact absurd h1 (by decide)
        · rw [h2.1] at h1; exact absurd h1 (by decide)
      · rcases h with h2 | h2
        · rw [h2] at h1; exact absurd h1.1 (by decide)
        · exact h2.2 h1.2
    rcases hcases with h1 | h1
    · exact absurd h1 hnd
    · rw [h1, if_pos]
      rcases h with h2 | h2
      · exact Or.inr h2
      · exact Or.inl h2.1

/-- **C41 fails for `.dat` files**: with an empty format such a file is written as a text table but
read as Cap'n Proto. -/
theorem C41_dat_written_not_read :
    writeFormat "hits.dat".toList [] = .dat ∧ readFormat "hits.dat".toList [] = .ok .capnp := by
  decide

/-- With the format given explicitly the table is written and reading always throws. -/
theorem C41_dat_never_read (path : List Char) :
    writeFormat path "dat".toList = .dat ∧ readFormat path "dat".toList = .throws .runtimeError := by
  exact ⟨(writeFormat_dat_iff _ _).2 (Or.inl rfl), by unfold readFormat; decide⟩

/-- An unknown format is accepted when writing and rejected when reading. -/
theorem C41_unknown_format (path : List Char) :
    writeFormat path "csv".toList = .capnp ∧
      readFormat path "csv".toList = .throws .invalidArgument := by
  constructor
  · have h : inferFormat path "csv".toList = "csv".toList := by
      unfold inferFormat
      rw [if_neg (show ¬"csv".toList = [] by decide)]
    unfold writeFormat
    rw [h]; decide
  · unfold readFormat; decide

/-! ## Concrete cases -/

/-- 24-bit floats: the rationals that rounding leaves alone. -/
def Float32 : Type := { q : ℚ // rne 24 q = q }

theorem rne_idem (x : ℚ) : rne 24 (rne 24 x) = rne 24 x := by
  by_cases hx : x = 0
  · subst hx; simp [rne]
  · have h1 : ∀ y : ℚ, 0 < y → rne 24 (rne 24 y) = rne 24 y := by
      intro y hy
      have hb := (rne_bounds (p := 24) (by norm_num) hy).2
      have h0 := rne_nonneg (p := 24) (by norm_num) hy.le
      unfold rne at hb h0
      rw [if_neg (ne_of_gt hy)] at hb h0
      have hu := ulp_pos 24 y
      rw [← ulp_mul 24 y] at hb
      have h2 : (nearInt (y / ulp 24 y) : ℚ) ≤ 2 ^ 24 := le_of_mul_le_mul_right hb hu
      have h3 : nearInt (y / ulp 24 y) ≤ 2 ^ 24 := by exact_mod_cast h2
      have h4 : (0 : ℚ) ≤ nearInt (y / ulp 24 y) := nonneg_of_mul_nonneg_left h0 hu
      have h5 : 0 ≤ nearInt (y / ulp 24 y) := by exact_mod_cast h4
      have e : rne 24 y = nearInt (y / ulp 24 y) * 2 ^ (expo y - (24 : Nat) + 1) := by
        unfold rne; rw [if_neg (ne_of_gt hy)]; rfl
      rw [e]
      exact rne_exact (by norm_num) _ _ (by rw [abs_of_nonneg h5]; exact h3)
    rcases lt_or_gt_of_ne hx with h | h
    · have := h1 (-x) (by linarith)
      rw [rne_neg, rne_neg] at this
      linarith
    · exact h1 x h

/-- Conversions between these floats and rationals (standing for doubles). -/
def exConv : Conv Float32 ℚ where
  toD x := x.1
  toF x := ⟨rne 24 x, rne_idem x⟩
  ofInt n := ⟨rne 24 n, rne_idem n⟩
  toInt x := if |x.1| < 2 ^ 63 then .ok (if 0 ≤ x.1 then ⌊x.1⌋ else ⌈x.1⌉) else .ub

/-- The laws hold of round-to-nearest conversions. -/
theorem exConv_lawful : exConv.Lawful := by
  constructor
  · intro x; exact Subtype.ext x.2
  · intro n hn
    have h1 : rne 24 (n : ℚ) = n := by
      have := rne_exact (p := 24) (by norm_num) n 0 hn
      simpa using this
    have h2 : |(n : ℚ)| < 2 ^ 63 := by
      have h3 : |(n : ℚ)| ≤ 2 ^ 24 := by exact_mod_cast hn
      exact lt_of_le_of_lt h3 (by norm_num)
    simp only [exConv, h1, h2, if_true]
    split <;> simp

def zeroF : Float32 := exConv.toF 0

/-- A hit at the given frequency and start time. -/
def exHit (freq start : ℚ) : Hit Float32 ℚ :=
  ⟨1000, freq, start, 300, 12, 1 / 2, 4096, 16, zeroF, zeroF, 3, [], 0⟩

theorem narrow_small (m e : ℤ) (h : |m| ≤ 2 ^ 24) : exConv.Narrow ((m : ℚ) * 2 ^ e) :=
  rne_exact (by norm_num) m e h

theorem narrow_int (m : ℤ) (h : |m| ≤ 2 ^ 24) : exConv.Narrow (m : ℚ) := by
  have := narrow_small m 0 h
  simpa using this

/-- The hypotheses of C37, C39 and C40 hold of an ordinary hit. -/
theorem exHit_storable : Storable exConv (exHit (14204057 * 2 ^ (-13 : ℤ)) 59000) ∧
    |(exHit (14204057 * 2 ^ (-13 : ℤ)) 59000).binwidth| ≤ 2 ^ 24 := by
  refine ⟨⟨?_, ?_, ?_, ?_, ?_, ?_, rfl⟩, ?_⟩
  · simp [Fits32, exHit]
  · simp [Fits32, exHit]
  · simp [Fits32, exHit]
  · exact_mod_cast narrow_int 4096 (by norm_num)
  · exact_mod_cast narrow_int 59000 (by norm_num)
  · exact_mod_cast narrow_int 300 (by norm_num)
  · simp only [exHit]; norm_num

/-- The right-hand side of C21 holds of an ordinary hit stored into a copy. -/
example : setState exConv (exHit 0 59000) (getState exConv (exHit (14204057 * 2 ^ (-13 : ℤ)) 59000)) =
    .ok (exHit (14204057 * 2 ^ (-13 : ℤ)) 59000) := by
  rw [C21_state_round_trip_partial exConv_lawful _ _ (by simp only [exHit]; norm_num)]
  refine ⟨?_, ?_, ?_, rfl, rfl, rfl, rfl⟩
  · exact_mod_cast narrow_small 14204057 (-13) (by norm_num)
  · have := narrow_small 1 (-1) (by norm_num)
    have e : (((1 : ℤ) : ℚ) * 2 ^ (-1 : ℤ)) = 1 / 2 := by norm_num
    rw [e] at this
    exact this
  · exact_mod_cast narrow_int 4096 (by norm_num)

theorem rne_big : rne 24 16777217 = 16777216 := by
  have h : rne 24 16777217 = rne 24 16777216 := by
    have hu : ∀ x : ℚ, 16777216 ≤ x → x < 33554432 → expo x = 24 := by
      intro x h1 h2
      refine expo_eq ?_ ?_ <;> rw [abs_of_pos (by linarith)]
      · norm_num; exact h1
      · norm_num; exact h2
    unfold rne ulp
    rw [hu _ (by norm_num) (by norm_num), hu _ (by norm_num) (by norm_num),
      if_neg (by norm_num), if_neg (by norm_num)]
    have f1 : ⌊(16777217 : ℚ) / 2 ^ ((24 : ℤ) - ((24 : Nat) : ℤ) + 1)⌋ = 8388608 := by
      rw [Int.floor_eq_iff]; norm_num
    have f2 : ⌊(16777216 : ℚ) / 2 ^ ((24 : ℤ) - ((24 : Nat) : ℤ) + 1)⌋ = 8388608 := by
      rw [Int.floor_eq_iff]; norm_num
    have n1 : nearInt ((16777217 : ℚ) / 2 ^ ((24 : ℤ) - ((24 : Nat) : ℤ) + 1)) = 8388608 := by
      unfold nearInt; rw [f1]; norm_num
    have n2 : nearInt ((16777216 : ℚ) / 2 ^ ((24 : ℤ) - ((24 : Nat) : ℤ) + 1)) = 8388608 := by
      unfold nearInt; rw [f2]; norm_num
    rw [n1, n2]
  rw [h]
  have := rne_exact (p := 24) (by norm_num) 16777216 0 (by norm_num)
  norm_num at this
  exact this

/-- **C21 fails in general**: two hits at different frequencies have the same state, so no
`set_state` can restore both. -/
theorem C21_two_hits_same_state :
    getState exConv (exHit 16777216 0) = getState exConv (exHit 16777217 0) ∧
      exHit 16777216 0 ≠ exHit 16777217 0 := by
  have h2 : rne 24 16777216 = 16777216 := by
    have := rne_exact (p := 24) (by norm_num) 16777216 0 (by norm_num)
    norm_num at this
    exact this
  constructor
  · unfold getState
    have : exConv.toF (exHit 16777216 0).startFreqMHz = exConv.toF (exHit 16777217 0).startFreqMHz := by
      refine Subtype.ext ?_
      simp only [exConv, exHit]
      rw [rne_big, h2]
    rw [this]
    rfl
  · intro h
    have := congrArg Hit.startFreqMHz h
    norm_num [exHit] at this

/-- **C37 fails in general**: the start time of a hit is stored as a `float`, so two hits that start
a second apart are written as the same message. -/
theorem C37_start_time_lost :
    toSignal exConv (exHit 0 16777216) = toSignal exConv (exHit 0 16777217) ∧
      exHit 0 16777216 ≠ exHit 0 16777217 := by
  have h2 : rne 24 16777216 = 16777216 := by
    have := rne_exact (p := 24) (by norm_num) 16777216 0 (by norm_num)
    norm_num at this
    exact this
  constructor
  · unfold toSignal
    have : exConv.toF (exHit 0 16777216).startTime = exConv.toF (exHit 0 16777217).startTime := by
      refine Subtype.ext ?_
      simp only [exConv, exHit]
      rw [rne_big, h2]
    rw [this]
    rfl
  · intro h
    have := congrArg Hit.startTime h
    norm_num [exHit] at this

/-- A framing that meets the laws (messages here are short byte lists): length prefix. -/
def exFraming : Framing { l : List UInt8 // l.length < 256 } where
  encode m := UInt8.ofNat m.1.length :: m.1
  decode
    | [] => none
    | n :: bytes =>
      if h : n.toNat ≤ bytes.length then
        some (⟨bytes.take n.toNat, by
          rw [List.length_take]
          exact lt_of_le_of_lt (Nat.min_le_left _ _) n.toNat_lt⟩, bytes.drop n.toNat)
      else none

/-- The framing laws are satisfiable. -/
theorem exFraming_lawful : exFraming.LawfulOn fun _ => True := by
  have hlen : ∀ m : { l : List UInt8 // l.length < 256 },
      (UInt8.ofNat m.1.length).toNat = m.1.length := by
    intro m
    rw [UInt8.toNat_ofNat']
    exact Nat.mod_eq_of_lt m.2
  constructor
  · intro m _; simp [exFraming]
  · intro m _ rest
    simp only [exFraming, List.cons_append, hlen]
    rw [dif_pos (by simp)]
    simp
  · intro m _ bytes hpre hne
    cases bytes with
    | nil => rfl
    | cons n bytes =>
      simp only [exFraming] at hpre hne ⊢
      rw [List.cons_prefix_cons] at hpre
      obtain ⟨rfl, hpre⟩ := hpre
      rw [dif_neg]
      rw [hlen]
      intro hle
      exact hne (by rw [hpre.eq_of_length_le hle])
  · rfl

end Bliss.File
