import Verif.Base
import Mathlib.Tactic.ByContra
import Mathlib.Data.List.Basic

/-!
# Interpretation of the HDF5 data shape (C42)

Models `bliss::h5_filterbank_file::get_data_shape`,
bliss/file_types/h5_filterbank_file.cpp lines 233-293. The HDF5 library is outside the model: a
dataset is its dimension sizes, the strings of its `DIMENSION_LABELS` attribute and its `nchans`
attribute, if present.
-/

namespace Bliss.H5Shape

/-- What `get_data_shape` reads of the dataset. Reading a missing `DIMENSION_LABELS` throws before
anything else; `labels = none` stands for that. -/
structure Dataset where
  dims : List Int
  labels : Option (List String)
  nchans : Option Int

/-- The three tuples of lines 245-247, without the index that is never used. -/
structure St where
  time : Option Int
  feed : Option Int
  freq : Option Int
  deriving DecidableEq

/-- h5_filterbank_file.cpp lines 248-269: one iteration. `lbl = none` is an access past the end of
the labels: undefined, except when all three dimensions are already set and the size is one, in
which case the label is not looked at. -/
def step (st : St) (size : Int) (lbl : Option String) : Outcome St :=
  match lbl with
  | none =>
    if st.time.isSome ∧ st.freq.isSome ∧ st.feed.isSome ∧ size = 1 then .throws .invalidArgument
    else .ub
  | some l =>
    if st.time = none ∧ l = "time" then .ok { st with time := some size }
    else if st.freq = none ∧ l = "frequency" then .ok { st with freq := some size }
    else if st.feed = none ∧ l = "feed_id" then
      if size ≠ 1 then .throws .invalidArgument else .ok { st with feed := some size }
    else if size ≠ 1 then .ok st
    else .throws .invalidArgument

/-- h5_filterbank_file.cpp lines 248-269: the loop over the dimensions. -/
def scanDims : List Int → List String → St → Outcome St
  | [], _, st => .ok st
  | s :: dims, [], st => do
    let st' ← step st s none
    scanDims dims [] st'
  | s :: dims, l :: labels, st => do
    let st' ← step st s (some l)
    scanDims dims labels st'

/-- h5_filterbank_file.cpp lines 270-292. -/
def finish (st : St) (nchans : Option Int) : Outcome (List Int) :=
  match st.time with
  | none => .throws .invalidArgument
  | some t => match st.feed with
    | none => .throws .invalidArgument
    | some d => match st.freq with
      | none => .throws .invalidArgument
      | some f => match nchans with
        | none => .throws .invalidArgument
        | some n => if t = n ∧ f ≠ n then .ok [f, d, t] else .ok [t, d, f]

/-- h5_filterbank_file.cpp lines 233-293. -/
def getDataShape (ds : Dataset) : Outcome (List Int) :=
  match ds.labels with
  | none => .throws .invalidArgument
  | some labels => do
    let st ← scanDims ds.dims labels ⟨none, none, none⟩
    finish st ds.nchans

/-! ## Specification -/

/-- The labelled dimensions in order. -/
def Dataset.pairs (ds : Dataset) : List (String × Int) := (ds.labels.getD []).zip ds.dims

/-- Size of the first dimension with label `l`. -/
def sizeOf (l : String) (ps : List (String × Int)) : Option Int :=
  (ps.find? (fun p => p.1 = l)).map Prod.snd

/-- Sizes of the extra dimensions: those that are not the first one labelled time, feed_id or
frequency. `seen` are the labels met so far. -/
def extras (seen : List String) : List (String × Int) → List Int
  | [] => []
  | (l, s) :: ps =>
    if l ∈ ["time", "frequency", "feed_id"] ∧ l ∉ seen then extras (l :: seen) ps
    else s :: extras seen ps

/-- The dataset has the three dimensions, with one feed. -/
structure HasAxes (ps : List (String × Int)) (t f : Int) : Prop where
  time : sizeOf "time" ps = some t
  feed : sizeOf "feed_id" ps = some 1
  freq : sizeOf "frequency" ps = some f

/-! ## Proofs -/

/-- The labels recorded in a state. -/
def St.seen (st : St) : List String :=
  (if st.time.isSome then ["time"] else []) ++ (if st.freq.isSome then ["frequency"] else []) ++
    (if st.feed.isSome then ["feed_id"] else [])

/-- Result of the loop in terms of the specification. -/
structure LoopOk (ps : List (String × Int)) (st st' : St) : Prop where
  time : st'.time = (st.time.or (sizeOf "time" ps))
  freq : st'.freq = (st.freq.or (sizeOf "frequency" ps))
  feed : st'.feed = (st.feed.or (sizeOf "feed_id" ps))
  one : st.feed = none → ∀ d, sizeOf "feed_id" ps = some d → d = 1

theorem extras_congr {s1 s2 : List String} :
    (∀ x, x ∈ ["time", "frequency", "feed_id"] → (x ∈ s1 ↔ x ∈ s2)) →
    ∀ ps, extras s1 ps = extras s2 ps := by
  intro h ps
  induction ps generalizing s1 s2 with
  | nil => rfl
  | cons p ps ih =>
    obtain ⟨l, s⟩ := p
    simp only [extras]
    by_cases hl : l ∈ ["time", "frequency", "feed_id"]
    · have := h l hl
      by_cases h1 : l ∈ s1
      · rw [if_neg (by simp [h1]), if_neg (by simp [this.1 h1]), ih h]
      · rw [if_pos ⟨hl, h1⟩, if_pos ⟨hl, fun h2 => h1 (this.2 h2)⟩]
        refine ih (fun x hx => ?_)
        simp only [List.mem_cons]
        rw [h x hx]
    · rw [if_neg (by simp [hl]), if_neg (by simp [hl]), ih h]

theorem scanDims_spec : ∀ (dims : List Int) (labels : List String) (st : St),
    dims.length ≤ labels.length →
    (((∀ x ∈ extras st.seen (labels.zip dims), x ≠ 1) ∧
      (st.feed = none → ∀ d, sizeOf "feed_id" (labels.zip dims) = some d → d = 1)) →
      ∃ st', scanDims dims labels st = .ok st' ∧ LoopOk (labels.zip dims) st st') ∧
    (¬ ((∀ x ∈ extras st.seen (labels.zip dims), x ≠ 1) ∧
      (st.feed = none → ∀ d, sizeOf "feed_id" (labels.zip dims) = some d → d = 1)) →
      scanDims dims labels st = .throws .invalidArgument)
  | [], labels, st, _ => by
    simp only [List.zip_nil_right, extras, scanDims]
    constructor
    · intro _
      exact ⟨st, rfl, ⟨by simp [sizeOf], by simp [sizeOf], by simp [sizeOf], by simp [sizeOf]⟩⟩
    · intro h; exact absurd ⟨by simp, by simp [sizeOf]⟩ h
  | s :: dims, [], st, h => by simp at h
  | s :: dims, l :: labels, st, h => by
    have hlen : dims.length ≤ labels.length := by simpa using h
    simp only [scanDims, List.zip_cons_cons]
    have hsz : ∀ k, sizeOf k ((l, s) :: labels.zip dims) =
        if l = k then some s else sizeOf k (labels.zip dims) := by
      intro k
      unfold sizeOf
      rw [List.find?_cons]
      by_cases hk : l = k <;> simp [hk]
    by_cases ht : st.time = none ∧ l = "time"
    · obtain ⟨ht1, rfl⟩ := ht
      have hstep : step st s (some "time") = .ok { st with time := some s } := by
        simp [step, ht1]
      rw [hstep, Outcome.bind_ok]
      have ih := scanDims_spec dims labels { st with time := some s } hlen
      have hex : extras st.seen (("time", s) :: labels.zip dims) =
          extras (St.seen { st with time := some s }) (labels.zip dims) := by
        simp only [extras]
        rw [if_pos ⟨by simp, by cases h1 : st.time <;> cases h2 : st.freq <;> cases h3 : st.feed <;> simp_all [St.seen]⟩]
        exact extras_congr (fun x _ => by simp [St.seen, ht1]) _
      rw [hex, hsz]
      simp only [show ("time" : String) ≠ "feed_id" by decide, if_false]
      refine ⟨fun hgood => ?_, ih.2⟩
      obtain ⟨st', h1, h2⟩ := ih.1 hgood
      refine ⟨st', h1, ⟨?_, ?_, ?_, ?_⟩⟩
      · rw [h2.time, hsz]; simp [ht1]
      · rw [h2.freq, hsz]; simp
      · rw [h2.feed, hsz]; simp
      · intro hf d; rw [hsz]; simpa using h2.one hf d
    by_cases hf : st.freq = none ∧ l = "frequency"
    · obtain ⟨hf1, rfl⟩ := hf
      have hstep : step st s (some "frequency") = .ok { st with freq := some s } := by
        simp [step, hf1]
      rw [hstep, Outcome.bind_ok]
      have ih := scanDims_spec dims labels { st with freq := some s } hlen
      have hex : extras st.seen (("frequency", s) :: labels.zip dims) =
          extras (St.seen { st with freq := some s }) (labels.zip dims) := by
        simp only [extras]
        rw [if_pos ⟨by simp, by cases h1 : st.time <;> cases h2 : st.freq <;> cases h3 : st.feed <;> simp_all [St.seen]⟩]
        refine extras_congr (fun x _ => ?_) _
        simp only [St.seen, hf1, List.mem_cons, List.mem_append]
        by_cases hx : x = "frequency"
        · simp [hx]
        · split <;> split <;> simp [hx]
      rw [hex, hsz]
      simp only [show ("frequency" : String) ≠ "feed_id" by decide, if_false]
      refine ⟨fun hgood => ?_, ih.2⟩
      obtain ⟨st', h1, h2⟩ := ih.1 hgood
      refine ⟨st', h1, ⟨?_, ?_, ?_, ?_⟩⟩
      · rw [h2.time, hsz]; simp
      · rw [h2.freq, hsz]; simp [hf1]
      · rw [h2.feed, hsz]; simp
      · intro hf d; rw [hsz]; simpa using h2.one hf d
    by_cases hd : st.feed = none ∧ l = "feed_id"
    · obtain ⟨hd1, rfl⟩ := hd
      have hex : extras st.seen (("feed_id", s) :: labels.zip dims) =
          extras (St.seen { st with feed := some s }) (labels.zip dims) := by
        simp only [extras]
        rw [if_pos ⟨by simp, by cases h1 : st.time <;> cases h2 : st.freq <;> cases h3 : st.feed <;> simp_all [St.seen]⟩]
        refine extras_congr (fun x _ => ?_) _
        simp only [St.seen, hd1, List.mem_cons, List.mem_append]
        by_cases hx : x = "feed_id"
        · simp [hx]
        · split <;> split <;> simp [hx]
      by_cases h1 : s = 1
      · subst h1
        have hstep : step st 1 (some "feed_id") = .ok { st with feed := some 1 } := by
          simp [step, hd1]
        rw [hstep, Outcome.bind_ok]
        have ih := scanDims_spec dims labels { st with feed := some 1 } hlen
        rw [hex, hsz]
        have hsome : (some (1 : Int) = none) = False := by simp
        simp only [hsome, false_imp_iff, and_true] at ih
        simp only [if_true, Option.some.injEq]
        refine ⟨fun hgood => ?_, fun hbad => ih.2 (fun hx => hbad ⟨hx, fun _ d hd => hd.symm⟩)⟩
        obtain ⟨st', h1, h2⟩ := ih.1 hgood.1
        refine ⟨st', h1, ⟨?_, ?_, ?_, ?_⟩⟩
        · rw [h2.time, hsz]; simp
        · rw [h2.freq, hsz]; simp
        · rw [h2.feed, hsz]; simp [hd1]
        · intro hf d; rw [hsz]; simp; exact fun h => h.symm
      · have hstep : step st s (some "feed_id") = .throws .invalidArgument := by
          simp [step, hd1, h1]
        rw [hstep, Outcome.bind_throws]
        refine ⟨fun hgood => ?_, fun _ => rfl⟩
        exact absurd (hgood.2 hd1 s (by rw [hsz]; simp)) h1
    · have hseen : ¬ (l ∈ ["time", "frequency", "feed_id"] ∧ l ∉ st.seen) := by
        rintro ⟨hl, hn⟩
        simp only [List.mem_cons, List.not_mem_nil, or_false] at hl
        rcases hl with rfl | rfl | rfl
        · apply hn; have : st.time.isSome := by
            cases h : st.time <;> simp_all
          simp [St.seen, this]
        · apply hn; have : st.freq.isSome := by
            cases h : st.freq <;> simp_all
          simp [St.seen, this]
        · apply hn; have : st.feed.isSome := by
            cases h : st.feed <;> simp_all
          simp [St.seen, this]
      have hex : extras st.seen ((l, s) :: labels.zip dims) =
          s :: extras st.seen (labels.zip dims) := by
        simp only [extras]; rw [if_neg hseen]
      by_cases h1 : s = 1
      · subst h1
        have hstep : step st 1 (some l) = .throws .invalidArgument := by
          simp only [step, if_neg ht, if_neg hf, if_neg hd]; simp
        rw [hstep, Outcome.bind_throws, hex]
        exact ⟨fun hgood => absurd rfl (hgood.1 1 (by simp)), fun _ => rfl⟩
      · have hstep : step st s (some l) = .ok st := by
          simp only [step, if_neg ht, if_neg hf, if_neg hd]; simp [h1]
        rw [hstep, Outcome.bind_ok, hex, hsz]
        have ih := scanDims_spec dims labels st hlen
        have hfeed : (st.feed = none → ∀ d, (if l = "feed_id" then some s else
            sizeOf "feed_id" (labels.zip dims)) = some d → d = 1) ↔
            (st.feed = none → ∀ d, sizeOf "feed_id" (labels.zip dims) = some d → d = 1) := by
          constructor
          · intro h hn d hd'
            have hl : l ≠ "feed_id" := fun h => hd ⟨hn, h⟩
            exact h hn d (by rw [if_neg hl]; exact hd')
          · intro h hn d hd'
            have hl : l ≠ "feed_id" := fun h => hd ⟨hn, h⟩
            rw [if_neg hl] at hd'
            exact h hn d hd'
        rw [hfeed]
        simp only [List.mem_cons, forall_eq_or_imp, ne_eq, h1, not_false_eq_true, true_and]
        refine ⟨fun hgood => ?_, fun hbad => ih.2 hbad⟩
        obtain ⟨st', h1', h2⟩ := ih.1 hgood
        refine ⟨st', h1', ⟨?_, ?_, ?_, ?_⟩⟩
        · rw [h2.time, hsz]
          cases hc : st.time with
          | none => have : l ≠ "time" := fun h => ht ⟨hc, h⟩; simp [this]
          | some _ => simp
        · rw [h2.freq, hsz]
          cases hc : st.freq with
          | none => have : l ≠ "frequency" := fun h => hf ⟨hc, h⟩; simp [this]
          | some _ => simp
        · rw [h2.feed, hsz]
          cases hc : st.feed with
          | none => have : l ≠ "feed_id" := fun h => hd ⟨hc, h⟩; simp [this]
          | some _ => simp
        · intro hn d; rw [hsz]; exact hfeed.2 h2.one hn d

/-- What the function accepts and returns, exactly: for a dataset with a label for every
dimension, it succeeds if and only if there are a time, a frequency and a feed dimension, the feed
has size one, the number of channels is recorded, and **no extra dimension has size one**; it then
returns the sizes of time, feed and frequency, with time and frequency exchanged when only the
time size equals the recorded number of channels. In all other cases it throws. -/
theorem C42_acceptance (ds : Dataset) (labels : List String) (hl : ds.labels = some labels)
    (hlen : ds.dims.length ≤ labels.length) (shape : List Int) :
    getDataShape ds = .ok shape ↔
      ∃ t f n, HasAxes ds.pairs t f ∧ ds.nchans = some n ∧
        (∀ x ∈ extras [] ds.pairs, x ≠ 1) ∧
        shape = if t = n ∧ f ≠ n then [f, 1, t] else [t, 1, f] := by
  have hp : ds.pairs = labels.zip ds.dims := by simp [Dataset.pairs, hl]
  have key := scanDims_spec ds.dims labels ⟨none, none, none⟩ hlen
  have hs : St.seen ⟨none, none, none⟩ = [] := rfl
  rw [hs] at key
  simp only [getDataShape, hl, hp]
  constructor
  · intro h
    by_cases hg : (∀ x ∈ extras [] (labels.zip ds.dims), x ≠ 1) ∧
      ((none : Option Int) = none → ∀ d, sizeOf "feed_id" (labels.zip ds.dims) = some d → d = 1)
    · obtain ⟨st', h1, h2⟩ := key.1 hg
      rw [h1, Outcome.bind_ok] at h
      have e1 := h2.time; have e2 := h2.freq; have e3 := h2.feed
      simp only [Option.none_or] at e1 e2 e3
      unfold finish at h
      cases h3 : st'.time with
      | none => simp [h3] at h
      | some t =>
        cases h4 : st'.feed with
        | none => simp [h3, h4] at h
        | some d =>
          cases h5 : st'.freq with
          | none => simp [h3, h4, h5] at h
          | some f =>
            cases h6 : ds.nchans with
            | none => simp [h3, h4, h5, h6] at h
            | some n =>
              have hd1 : d = 1 := h2.one rfl d (by rw [← e3, h4])
              subst hd1
              refine ⟨t, f, n, ⟨by rw [← e1, h3], by rw [← e3, h4], by rw [← e2, h5]⟩, rfl, hg.1, ?_⟩
              simp only [h3, h4, h5, h6] at h
              split at h <;> rename_i hc <;> simp only [Outcome.ok.injEq] at h
              · rw [if_pos hc]; exact h.symm
              · rw [if_neg hc]; exact h.symm
    · rw [key.2 hg] at h; simp at h
  · rintro ⟨t, f, n, hax, hn, hex, rfl⟩
    obtain ⟨st', h1, h2⟩ := key.1 ⟨hex, fun _ d hd => by rw [hax.feed] at hd; cases hd; rfl⟩
    have e1 := h2.time; have e2 := h2.freq; have e3 := h2.feed
    simp only [Option.none_or] at e1 e2 e3
    rw [h1, Outcome.bind_ok]
    simp only [finish, e1, e2, e3, hax.time, hax.feed, hax.freq, hn]
    split <;> rfl

theorem scanDims_throws (dims : List Int) (labels : List String) (st : St)
    (hlen : dims.length ≤ labels.length) :
    (∃ st', scanDims dims labels st = .ok st') ∨ scanDims dims labels st = .throws .invalidArgument := by
  induction dims generalizing labels st with
  | nil => exact .inl ⟨st, by simp [scanDims]⟩
  | cons d dims ih =>
    cases labels with
    | nil => simp at hlen
    | cons l labels =>
      have hstep : (∃ st', step st d (some l) = .ok st') ∨
          step st d (some l) = .throws .invalidArgument := by
        unfold step
        dsimp only
        split
        · exact .inl ⟨_, rfl⟩
        · split
          · exact .inl ⟨_, rfl⟩
          · split
            · split
              · exact .inr rfl
              · exact .inl ⟨_, rfl⟩
            · split
              · exact .inl ⟨_, rfl⟩
              · exact .inr rfl
      unfold scanDims
      rcases hstep with ⟨st', e⟩ | e
      · rw [e]
        exact ih labels st' (by simpa using hlen)
      · rw [e]
        exact .inr rfl

/-- A dataset without labels, and every dataset with a label for every dimension that is not accepted,
is rejected with `std::invalid_argument`. -/
theorem C42_rejection (ds : Dataset)
    (hlen : ∀ labels, ds.labels = some labels → ds.dims.length ≤ labels.length) :
    (∃ shape, getDataShape ds = .ok shape) ∨ getDataShape ds = .throws .invalidArgument := by
  unfold getDataShape
  cases hl : ds.labels with
  | none => exact .inr rfl
  | some labels =>
    dsimp only
    rcases scanDims_throws ds.dims labels ⟨none, none, none⟩ (hlen labels hl) with ⟨st, e⟩ | e
    · rw [e]
      simp only [Outcome.bind_ok]
      unfold finish
      repeat' split
      all_goals first | exact .inr rfl | exact .inl ⟨_, rfl⟩
    · rw [e]
      exact .inr rfl

theorem C42_no_labels (ds : Dataset) (h : ds.labels = none) :
    getDataShape ds = .throws .invalidArgument := by
  rcases C42_rejection ds (by simp [h]) with ⟨shape, e⟩ | e
  · simp [getDataShape, h] at e
  · exact e

/-- A dataset with enough labels that is rejected. -/
example : getDataShape ⟨[16, 2, 1024], some ["time", "feed_id", "frequency"], some 1024⟩ =
    .throws .invalidArgument := by decide

/-- **C42**, the part that holds: datasets with exactly the three dimensions, in any order, one
feed and correctly labelled (the channel count is the frequency size, or not the time size) are
accepted and their sizes returned in the order time, feed, frequency. Missing: extra dimensions,
where the code does the opposite of the property (`C42_singleton_extra_rejected`,
`C42_large_extra_accepted`). -/
theorem C42_three_dims_partial (ds : Dataset) {t f n : Int}
    (hperm : ds.pairs.Perm [("time", t), ("feed_id", 1), ("frequency", f)])
    (hl : ds.labels.isSome) (hlen : ds.dims.length ≤ (ds.labels.getD []).length)
    (hn : ds.nchans = some n) (hgood : f = n ∨ t ≠ n) :
    getDataShape ds = .ok [t, 1, f] := by
  obtain ⟨labels, hl⟩ := Option.isSome_iff_exists.1 hl
  have huniq : ∀ (ps : List (String × Int)) l s, (ps.map Prod.fst).Nodup → (l, s) ∈ ps →
      sizeOf l ps = some s := by
    intro ps
    induction ps with
    | nil => simp
    | cons p ps ih =>
      intro l s hnd hm
      simp only [List.map_cons, List.nodup_cons] at hnd
      unfold sizeOf
      rw [List.find?_cons]
      by_cases hpl : p.1 = l
      · rcases List.mem_cons.1 hm with h | h
        · rw [← h]; simp
        · exfalso; apply hnd.1; rw [hpl]; exact List.mem_map.2 ⟨_, h, rfl⟩
      · rcases List.mem_cons.1 hm with h | h
        · rw [← h] at hpl; simp at hpl
        · simp only [hpl, decide_false]; exact ih l s hnd.2 h
  have hnd : (ds.pairs.map Prod.fst).Nodup := by
    rw [(hperm.map Prod.fst).nodup_iff]; simp
  have hex : ∀ (ps : List (String × Int)) seen, (ps.map Prod.fst).Nodup →
      (∀ p ∈ ps, p.1 ∈ ["time", "frequency", "feed_id"] ∧ p.1 ∉ seen) → extras seen ps = [] := by
    intro ps
    induction ps with
    | nil => intros; rfl
    | cons p ps ih =>
      intro seen hnd hm
      obtain ⟨l, s⟩ := p
      simp only [List.map_cons, List.nodup_cons] at hnd
      simp only [extras]
      rw [if_pos (hm (l, s) (by simp))]
      refine ih _ hnd.2 (fun q hq => ⟨(hm q (by simp [hq])).1, ?_⟩)
      simp only [List.mem_cons, not_or]
      refine ⟨fun h => hnd.1 ?_, (hm q (by simp [hq])).2⟩
      rw [← h]; exact List.mem_map.2 ⟨q, hq, rfl⟩
  rw [C42_acceptance ds labels hl (by simpa [hl] using hlen)]
  refine ⟨t, f, n, ⟨?_, ?_, ?_⟩, hn, ?_, ?_⟩
  · exact huniq _ _ _ hnd (hperm.mem_iff.2 (by simp))
  · exact huniq _ _ _ hnd (hperm.mem_iff.2 (by simp))
  · exact huniq _ _ _ hnd (hperm.mem_iff.2 (by simp))
  · rw [hex _ _ hnd (fun p hp => ?_)]; simp
    have := hperm.mem_iff.1 hp
    simp only [List.mem_cons, List.not_mem_nil, or_false] at this
    rcases this with rfl | rfl | rfl <;> simp
  · rw [if_neg]
    rintro ⟨h1, h2⟩
    rcases hgood with h | h
    · exact h2 h
    · exact h h1

/-- **C42** fails: any dataset with an extra dimension of size one is rejected. -/
theorem C42_singleton_extra_rejected (ds : Dataset) (labels : List String)
    (hl : ds.labels = some labels) (hlen : ds.dims.length ≤ labels.length)
    (hx : 1 ∈ extras [] ds.pairs) (shape : List Int) : getDataShape ds ≠ .ok shape := by
  rw [ne_eq, C42_acceptance ds labels hl hlen]
  rintro ⟨t, f, n, _, _, h, _⟩
  exact h 1 hx rfl

/-- **C42** fails in the other direction: a dataset that is not `[time, feed, frequency]` at all,
with a fourth dimension of two polarisations, is accepted as if it had three dimensions. -/
theorem C42_large_extra_accepted :
    getDataShape ⟨[16, 1, 2, 1024], some ["time", "feed_id", "pol", "frequency"], some 1024⟩ =
      .ok [16, 1, 1024] := by decide

/-- **C42** fails for fewer labels than dimensions: the labels are read past their end. -/
theorem C42_missing_labels_ub (t : Int) (nchans : Option Int) :
    getDataShape ⟨[t, 1, 1024], some ["time", "feed_id"], nchans⟩ = .ub := by
  simp [getDataShape, scanDims, step]

/-- Concrete case for `C42_three_dims_partial`: an order other than the usual one. -/
example : getDataShape ⟨[1024, 1, 16], some ["frequency", "feed_id", "time"], some 1024⟩ =
    .ok [16, 1, 1024] :=
  C42_three_dims_partial _ (by decide) (by decide) (by decide) rfl (by decide)

/-- Concrete case for `C42_singleton_extra_rejected`. -/
example (shape : List Int) :
    getDataShape ⟨[16, 1, 1, 1024], some ["time", "feed_id", "pol", "frequency"], some 1024⟩ ≠
      .ok shape :=
  C42_singleton_extra_rejected _ _ rfl (by decide) (by decide) shape

end Bliss.H5Shape
