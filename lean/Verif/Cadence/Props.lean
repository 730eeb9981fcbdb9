import Verif.Cadence.Model
import Verif.Scan.Props
import Mathlib.Tactic.ByContra

/-!
# Properties of observation targets and cadences (C35, C36, C68, C69)
-/

namespace Bliss.Cadence

open Bliss.Hit (Hit)
open Bliss.Scan Bliss.File

variable {F D Dev P : Type}

/-! ## C35: consistency validation -/

/-- The scans of a list agree on `fch1`, `foff` and the number of channels. -/
def Agree (l : List (Scan F D Dev P)) : Prop :=
  ∀ a ∈ l, ∀ b ∈ l, a.fch1 = b.fch1 ∧ a.hdr.foff = b.hdr.foff ∧ a.nchans = b.nchans

/-- **C35 (part): scans that do not agree on the number of channels are rejected**, for targets and
for cadences. The other direction, that scans which agree are accepted, is false for every target
(`C35_rejects_every_target`, `C35_rejects_every_cadence`). -/
theorem C35_different_counts_rejected_partial (o : DOps D) (t : Target F D Dev P)
    (c : Cadence F D Dev P) :
    ((∃ a ∈ t.scans, ∃ b ∈ t.scans, a.nchans ≠ b.nchans) → t.validate o = false) ∧
    ((∃ a ∈ c.targets.flatMap Target.scans, ∃ b ∈ c.targets.flatMap Target.scans,
      a.nchans ≠ b.nchans) → c.validate o = false) := by
  have key : ∀ (s : Scan F D Dev P) (l : List (Scan F D Dev P)),
      (∃ a ∈ l, ∃ b ∈ l, a.nchans ≠ b.nchans) →
      ∃ x ∈ l, mismatch o s.fch1 s.hdr.foff s.nchans x = true := by
    rintro s l ⟨a, ha, b, hb, hne⟩
    by_cases h : a.nchans = s.nchans
    · exact ⟨b, hb, by simp [mismatch, show b.nchans ≠ s.nchans from fun e => hne (by rw [h, e])]⟩
    · exact ⟨a, ha, by simp [mismatch, h]⟩
  constructor
  · intro h
    unfold Target.validate
    cases hs : t.scans with
    | nil => rw [hs] at h; obtain ⟨a, ha, _⟩ := h; cases ha
    | cons s rest =>
      rw [hs] at h
      obtain ⟨x, hx, hm⟩ := key s _ h
      simp only []
      rw [List.all_eq_false]
      exact ⟨x, hx, by simp [hm]⟩
  · intro h
    unfold Cadence.validate
    cases hf : firstScan c.targets with
    | none =>
      exfalso
      have hnone : ∀ l : List (Target F D Dev P), firstScan l = none → l.flatMap Target.scans = [] := by
        intro l
        induction l with
        | nil => intro _; rfl
        | cons t l ih =>
          intro hl
          unfold firstScan at hl
          cases ht : t.scans with
          | nil => rw [ht] at hl; simp [List.flatMap_cons, ht, ih hl]
          | cons s r => rw [ht] at hl; cases hl
      rw [hnone _ hf] at h
      obtain ⟨a, ha, _⟩ := h
      cases ha
    | some s =>
      obtain ⟨x, hx, hm⟩ := key s _ h
      obtain ⟨t, ht, hxt⟩ := List.mem_flatMap.1 hx
      simp only []
      rw [List.all_eq_false]
      refine ⟨t, ht, ?_⟩
      rw [Bool.not_eq_true, List.all_eq_false]
      exact ⟨x, hxt, by simp [hm]⟩

/-- **C35 fails for every target with scans.** Whatever the scans are, provided the first one's
frequency is a number (`x - x` is closer to zero than 1e-6): validation returns false, and the number
of coarse channels and the channel of a frequency cannot be asked for. -/
theorem C35_rejects_every_target (o : DOps D) (t : Target F D Dev P) (s : Scan F D Dev P)
    (rest : List (Scan F D Dev P)) (hs : t.scans = s :: rest)
    (hnum : o.lt (o.abs (o.sub s.fch1 s.fch1)) (o.lit (1 / 1000000)) = true) :
    t.validate o = false ∧ t.numberCoarse o = .throws .runtimeError ∧
      ∀ f, t.channelWithFrequency o f = .throws .runtimeError := by
  have h : t.validate o = false := by
    unfold Target.validate
    rw [hs]
    simp only []
    rw [List.all_eq_false]
    exact ⟨s, by simp, by simp only [mismatch, hnum, Bool.true_or, Bool.not_true]; decide⟩
  simp [Target.numberCoarse, Target.channelWithFrequency, h]

theorem firstScan_mem (l : List (Target F D Dev P)) (s : Scan F D Dev P)
    (h : firstScan l = some s) : ∃ t ∈ l, s ∈ t.scans := by
  induction l with
  | nil => simp [firstScan] at h
  | cons t l ih =>
    unfold firstScan at h
    cases ht : t.scans with
    | nil =>
      rw [ht] at h
      obtain ⟨u, hu, hsu⟩ := ih h
      exact ⟨u, by simp [hu], hsu⟩
    | cons x r =>
      rw [ht] at h
      simp only [Option.some.injEq] at h
      subst h
      exact ⟨t, by simp, by simp [ht]⟩

/-- The same for cadences with at least one scan. -/
theorem C35_rejects_every_cadence (o : DOps D) (c : Cadence F D Dev P) (s : Scan F D Dev P)
    (hs : firstScan c.targets = some s)
    (hnum : o.lt (o.abs (o.sub s.fch1 s.fch1)) (o.lit (1 / 1000000)) = true) :
    c.validate o = false ∧ c.numberCoarse o = .throws .runtimeError ∧
      ∀ f, c.channelWithFrequency o f = .throws .runtimeError := by
  have h : c.validate o = false := by
    unfold Cadence.validate
    rw [hs]
    obtain ⟨t, ht, hst⟩ := firstScan_mem _ _ hs
    simp only []
    rw [List.all_eq_false]
    refine ⟨t, ht, ?_⟩
    rw [Bool.not_eq_true, List.all_eq_false]
    exact ⟨s, hst, by simp only [mismatch, hnum, Bool.true_or, Bool.not_true]; decide⟩
  simp [Cadence.numberCoarse, Cadence.channelWithFrequency, h]

/-- Without scans a cadence passes validation and both questions are refused. -/
theorem C35_cadence_without_scans (o : DOps D) (c : Cadence F D Dev P)
    (hs : ∀ t ∈ c.targets, t.scans = []) :
    c.validate o = true ∧ c.numberCoarse o = .throws .runtimeError ∧
      ∀ f, c.channelWithFrequency o f = .throws .runtimeError := by
  have h : firstScan c.targets = none := by
    generalize c.targets = l at hs
    induction l with
    | nil => rfl
    | cons t l ih =>
      unfold firstScan
      rw [hs t (by simp)]
      exact ih (fun u hu => hs u (by simp [hu]))
  have hv : c.validate o = true := by unfold Cadence.validate; rw [h]
  simp [Cadence.numberCoarse, Cadence.channelWithFrequency, h, hv]

example : (Cadence.numberCoarse ratOps
    (⟨[Target.make true []], true⟩ : Cadence ℚ ℚ Bool Unit)) = .throws .runtimeError :=
  (C35_cadence_without_scans ratOps _ (by simp [Target.make])).2.1

/-- A target with two equal scans agrees, and is rejected. -/
theorem C35_consistent_target_rejected :
    Agree [exScan, exScan] ∧
      (Target.make true [exScan, exScan]).validate ratOps = false ∧
      (Target.make true [exScan, exScan]).numberCoarse ratOps = .throws .runtimeError := by
  refine ⟨by simp [Agree], ?_⟩
  have h := C35_rejects_every_target ratOps (Target.make true [exScan, exScan]) exScan [exScan] rfl
    (by decide +kernel)
  exact ⟨h.1, h.2.1⟩

/-- An empty target passes validation and then the number of coarse channels is undefined. -/
theorem C35_empty_target_undefined (o : DOps D) (dev : Dev) :
    (Target.make dev ([] : List (Scan F D Dev P))).validate o = true ∧
      (Target.make dev ([] : List (Scan F D Dev P))).numberCoarse o = .ub := ⟨rfl, rfl⟩

example : (Target.make true [exScan, { exScan with nchans := 8 }]).validate ratOps = false :=
  (C35_different_counts_rejected_partial ratOps _ ⟨[], true⟩).1
    ⟨exScan, by simp [Target.make], { exScan with nchans := 8 }, by simp [Target.make], by decide⟩

/-! ## C36: names -/

theorem append_ne_empty (a b : String) (hb : b ≠ "") : a ++ b ≠ "" := by
  intro h
  apply hb
  have := congrArg String.toList h
  simp only [String.toList_append] at this
  have hl : b.toList = [] := by
    have h2 : ("" : String).toList = [] := rfl
    rw [h2] at this
    exact (List.append_eq_nil_iff.1 this).2
  apply String.toList_inj.1
  rw [hl]; rfl

theorem nameLoop_ne_empty (names : List String) (acc : String) (h : acc ≠ "") :
    nameLoop acc names ≠ "" := by
  induction names generalizing acc with
  | nil => exact h
  | cons n rest ih =>
    unfold nameLoop
    split
    · exact ih acc h
    · rename_i hn
      split
      · exact ih _ (append_ne_empty _ _ (append_ne_empty _ _ hn))
      · exact ih acc h

/-- **C36 (part): never empty.** -/
theorem C36_never_empty (names : List String) : sourceName names ≠ "" := by
  unfold sourceName
  simp only []
  split
  · decide
  · assumption

/-- **C36 (part): the common name.** If every scan has the name `a` or none, and at least one has it,
the target has the name `a`. -/
theorem C36_common_name (names : List String) (a : String) (ha : a ≠ "") (hmem : a ∈ names)
    (hall : ∀ n ∈ names, n = "" ∨ n = a) : sourceName names = a := by
  have stay : ∀ l : List String, (∀ n ∈ l, n = "" ∨ n = a) → nameLoop a l = a := by
    intro l
    induction l with
    | nil => intro _; rfl
    | cons n rest ih =>
      intro h
      unfold nameLoop
      rcases h n (by simp) with rfl | rfl
      · rw [if_pos rfl]; exact ih (fun m hm => h m (by simp [hm]))
      · rw [if_neg ha, if_neg ha, if_neg (by simp)]; exact ih (fun m hm => h m (by simp [hm]))
  have start : ∀ l : List String, a ∈ l → (∀ n ∈ l, n = "" ∨ n = a) → nameLoop "" l = a := by
    intro l
    induction l with
    | nil => intro h; cases h
    | cons n rest ih =>
      intro hm h
      unfold nameLoop
      by_cases hn : n = ""
      · rw [if_pos hn]
        refine ih ?_ (fun m hm => h m (by simp [hm]))
        rcases List.mem_cons.1 hm with e | e
        · exact absurd (e.trans hn) ha
        · exact e
      · rw [if_neg hn, if_pos rfl]
        rcases h n (by simp) with e | e
        · exact absurd e hn
        · rw [e]; exact stay rest (fun m hm => h m (by simp [hm]))
  unfold sourceName
  simp only [start names hmem hall, if_neg ha]

/-- Without any name the target is called "unknown". -/
theorem C36_no_name (names : List String) (h : ∀ n ∈ names, n = "") :
    sourceName names = "unknown" := by
  have : ∀ l : List String, (∀ n ∈ l, n = "") → nameLoop "" l = "" := by
    intro l
    induction l with
    | nil => intro _; rfl
    | cons n rest ih =>
      intro h
      unfold nameLoop
      rw [if_pos (h n (by simp))]
      exact ih (fun m hm => h m (by simp [hm]))
  unfold sourceName
  simp only [this names h, if_true]

/-- Scans without a name do not matter. -/
theorem nameLoop_filter (names : List String) (acc : String) :
    nameLoop acc names = nameLoop acc (names.filter (· ≠ "")) := by
  induction names generalizing acc with
  | nil => rfl
  | cons n rest ih =>
    by_cases hn : n = ""
    · rw [List.filter_cons_of_neg (by simpa using hn)]
      conv_lhs => unfold nameLoop
      rw [if_pos hn]
      exact ih acc
    · rw [List.filter_cons_of_pos (by simpa using hn)]
      conv_lhs => unfold nameLoop
      conv_rhs => unfold nameLoop
      simp only [if_neg hn, ih]

/-- The names joined with `::`. -/
def joined : List String → String
  | [] => ""
  | a :: rest => rest.foldl (fun acc n => acc ++ ("::" ++ n)) a

/-- The names a list contributes: leading repetitions of the first name are dropped. -/
def contributing : List String → List String
  | [] => []
  | a :: rest => a :: rest.dropWhile (· = a)

theorem colon_append (a n : String) : ':' ∈ (a ++ ("::" ++ n)).toList := by
  simp [String.toList_append]

theorem nameLoop_colon (names : List String) (acc : String) (hacc : ':' ∈ acc.toList)
    (h : ∀ n ∈ names, n ≠ "" ∧ ':' ∉ n.toList) :
    nameLoop acc names = names.foldl (fun acc n => acc ++ ("::" ++ n)) acc := by
  induction names generalizing acc with
  | nil => rfl
  | cons n rest ih =>
    have hn := h n (by simp)
    have h1 : acc ≠ "" := by rintro rfl; simp at hacc
    have h2 : acc ≠ n := by rintro rfl; exact hn.2 hacc
    unfold nameLoop
    rw [if_neg hn.1, if_neg h1, if_pos h2, List.foldl_cons]
    exact ih _ (colon_append _ _) (fun m hm => h m (by simp [hm]))

/-- **C36 (part): several names.** For scans whose names do not contain a colon: the names are joined
with `::` in the order of the scans; scans without a name and further scans with the first name at
the start of the list add nothing. So when the different names come in any order without returning
to an earlier one, each is listed once. Missing: a name that returns later is listed again
(`C36_repeated_name`). -/
theorem C36_several_names_partial (names : List String)
    (h : ∀ n ∈ names, ':' ∉ n.toList) (hne : names.filter (· ≠ "") ≠ []) :
    sourceName names = joined (contributing (names.filter (· ≠ ""))) := by
  have hl : ∀ n ∈ names.filter (· ≠ ""), n ≠ "" ∧ ':' ∉ n.toList := by
    intro n hn
    obtain ⟨h1, h2⟩ := List.mem_filter.1 hn
    exact ⟨by simpa using h2, h n h1⟩
  have key : nameLoop "" names = joined (contributing (names.filter (· ≠ ""))) := by
    rw [nameLoop_filter]
    cases hf : names.filter (· ≠ "") with
    | nil => exact absurd hf hne
    | cons a rest =>
      rw [hf] at hl
      have ha := hl a (by simp)
      have step : ∀ l : List String, (∀ n ∈ l, n ≠ "" ∧ ':' ∉ n.toList) →
          nameLoop a l = (l.dropWhile (· = a)).foldl (fun acc n => acc ++ ("::" ++ n)) a := by
        intro l
        induction l with
        | nil => intro _; rfl
        | cons n l ih =>
          intro hl'
          have hn := hl' n (by simp)
          unfold nameLoop
          rw [if_neg hn.1, if_neg ha.1]
          by_cases e : n = a
          · subst e
            rw [if_neg (by simp), List.dropWhile_cons_of_pos (by simp)]
            exact ih (fun m hm => hl' m (by simp [hm]))
          · rw [if_pos (fun e' => e e'.symm), List.dropWhile_cons_of_neg (by simpa using e),
              List.foldl_cons]
            exact nameLoop_colon l _ (colon_append _ _) (fun m hm => hl' m (by simp [hm]))
      conv_lhs => unfold nameLoop
      rw [if_neg ha.1, if_pos rfl]
      exact step rest (fun m hm => hl m (by simp [hm]))
  have hr : nameLoop "" names ≠ "" := by
    rw [nameLoop_filter]
    cases hf : names.filter (· ≠ "") with
    | nil => exact absurd hf hne
    | cons a rest =>
      rw [hf] at hl
      have ha := hl a (by simp)
      unfold nameLoop
      rw [if_neg ha.1, if_pos rfl]
      exact nameLoop_ne_empty _ _ ha.1
  unfold sourceName
  simp only [if_neg hr]
  exact key

/-- **C36 (part): the name of a target** made from scans: the common name of the scans that have one;
several names in the order of the scans, as above; never empty. -/
theorem C36_target_name_partial {F D Dev P : Type} (dev : Dev) (scans : List (Scan F D Dev P)) :
    (Target.make dev scans).scans = scans ∧ (Target.make dev scans).device = dev ∧
    (Target.make dev scans).name ≠ "" ∧
    (∀ a : String, a ≠ "" → (∃ s ∈ scans, s.hdr.sourceName = a) →
      (∀ s ∈ scans, s.hdr.sourceName = "" ∨ s.hdr.sourceName = a) →
      (Target.make dev scans).name = a) ∧
    ((∀ s ∈ scans, ':' ∉ s.hdr.sourceName.toList) → (∃ s ∈ scans, s.hdr.sourceName ≠ "") →
      (Target.make dev scans).name =
        joined (contributing ((scans.map fun s => s.hdr.sourceName).filter (· ≠ "")))) := by
  refine ⟨rfl, rfl, C36_never_empty _, fun a ha hm hall => ?_, fun h hne => ?_⟩
  · refine C36_common_name _ a ha (List.mem_map.2 hm) fun n hn => ?_
    obtain ⟨s, hs, rfl⟩ := List.mem_map.1 hn
    exact hall s hs
  · refine C36_several_names_partial _ (fun n hn => ?_) ?_
    · obtain ⟨s, hs, rfl⟩ := List.mem_map.1 hn
      exact h s hs
    · obtain ⟨s, hs, hn⟩ := hne
      exact List.ne_nil_of_mem (List.mem_filter.2 ⟨List.mem_map.2 ⟨s, hs, rfl⟩, by simpa using hn⟩)

/-- **C36 fails when a name returns**: "A" is listed twice. -/
theorem C36_repeated_name : sourceName ["A", "B", "A"] = "A::B::A" := by decide

/-- A name that looks like the joined ones is not listed at all. -/
theorem C36_joined_name_hidden : sourceName ["A", "B", "A::B"] = "A::B" := by decide

example : sourceName ["", "A", "A", "", "B", "C"] = "A::B::C" := by
  rw [C36_several_names_partial _ (by decide) (by decide)]
  decide

example : sourceName ["", "HIP 1", "HIP 1"] = "HIP 1" :=
  C36_common_name _ _ (by decide) (by decide) (by decide)

/-! ## C68: slicing targets and cadences -/

/-- **C68 (part).** Slicing a cadence keeps the targets and their scans in order, each scan replaced
by its slice; with C29 this says that channel `i` of every scan of the slice is channel `start + i`
of the corresponding scan. Missing: the names of the targets (`C68_names_lost`). -/
theorem C68_slice_partial (o : DOps D) (he : Exact o) (dflt : Dev) (devOk : Dev → Bool)
    (c : Cadence F D Dev P) (start count : Int) (h0 : 0 ≤ start) (hcount : 0 ≤ count)
    (hfits : ∀ t ∈ c.targets, ∀ s ∈ t.scans, 0 ≤ s.fine ∧ s.fine * s.num < 2147483648 ∧
      start + count ≤ s.num) :
    (c.slice o dflt start count).targets.length = c.targets.length ∧
    ∀ k (hk : k < c.targets.length), ∃ t', (c.slice o dflt start count).targets[k]? = some t' ∧
      t'.scans.length = c.targets[k].scans.length ∧
      ∀ m (hm : m < c.targets[k].scans.length), ∃ s', t'.scans[m]? = some s' ∧ s'.num = count ∧
        s'.hdr = c.targets[k].scans[m].hdr ∧
        ∀ i, 0 ≤ i → i < count →
          (read o devOk s' i).2 = (read o devOk c.targets[k].scans[m] (start + i)).2 := by
  refine ⟨by simp [Cadence.slice], ?_⟩
  intro k hk
  refine ⟨(c.targets[k]).slice o dflt start count, by simp [Cadence.slice, hk],
    by simp [Target.slice], ?_⟩
  intro m hm
  refine ⟨Scan.slice o (c.targets[k].scans[m]) start count, by simp [Target.slice, hm], ?_, rfl, ?_⟩
  · simp only [Scan.slice]; rw [if_neg (by omega)]
  · intro i hi0 hi
    obtain ⟨h1, h2, h3⟩ := hfits _ (List.getElem_mem hk) _ (List.getElem_mem hm)
    exact C29_slice_index_partial o he devOk _ start count i h0 h1 h2 hcount h3 hi0 hi

/-- **C68 fails for names**: every target of a sliced cadence has an empty name. -/
theorem C68_names_lost (o : DOps D) (dflt : Dev) (c : Cadence F D Dev P) (start count : Int) :
    ∀ t ∈ (c.slice o dflt start count).targets, t.name = "" := by
  intro t ht
  simp only [Cadence.slice, List.mem_map] at ht
  obtain ⟨u, _, rfl⟩ := ht
  rfl

/-- A cadence to which both apply: one target named after its scan. -/
example : (Target.make true [exScan]).name = "VOYAGER-1" ∧
    ∀ t ∈ ((⟨[Target.make true [exScan]], true⟩ : Cadence ℚ ℚ Bool Unit).slice ratOps true 1 2).targets,
      t.name = "" := ⟨by decide, C68_names_lost _ _ _ _ _⟩

example : ∀ t ∈ (⟨[Target.make true [exScan]], true⟩ : Cadence ℚ ℚ Bool Unit).targets,
    ∀ s ∈ t.scans, 0 ≤ s.fine ∧ s.fine * s.num < 2147483648 ∧ 1 + 2 ≤ s.num := by
  intro t ht s hs
  simp only [List.mem_singleton] at ht
  subst ht
  simp only [Target.make, List.mem_singleton] at hs
  subst hs
  decide

/-! ## C69: choosing a device -/

theorem setAll_ok {A : Type} (f : A → A × Outcome Unit) (l : List A)
    (h : ∀ a ∈ l, (f a).2 = .ok ()) : setAll f l = (l.map (fun a => (f a).1), .ok ()) := by
  induction l with
  | nil => rfl
  | cons a l ih =>
    have ha := h a (by simp)
    unfold setAll
    cases hf : f a with
    | mk a' r =>
      rw [hf] at ha
      simp only [] at ha
      subst ha
      simp only [ih (fun b hb => h b (by simp [hb])), List.map_cons, hf]

/-- A read that succeeds after a usable device was chosen runs the transforms on a channel that is on
this device, and otherwise like the one delivered before. -/
theorem read_setDevice (o : DOps D) (devOk : Dev → Bool) (d : Dev) (hd : devOk d = true)
    (s : Scan F D Dev P) (hs : devOk s.device = true) (i : Int) (h0 : 0 ≤ i) (hi : i ≤ s.num) :
    (read o devOk (Scan.setDevice devOk d s).1 i).2 =
      base o devOk s i >>= fun c => applyAll s.pipeline { c with device := d } := by
  rw [read_view]
  unfold Scan.setDevice view base
  simp only [hd, if_true]
  rw [if_neg (by omega)]
  cases s.cache (i + s.offset) with
  | some c => simp only [Option.map_some, Outcome.bind_ok, Channel.setDevice, hd, if_true]
  | none =>
    simp only [Option.map_none]
    unfold fresh
    cases s.file with
    | none => rfl
    | some shape =>
      simp only []
      cases shape with
      | throws e => rfl
      | ub => rfl
      | ok l =>
        simp only [Outcome.bind_ok]
        match l with
        | [] => rfl
        | [_] => rfl
        | [_, _] => rfl
        | t :: f :: _ :: rest =>
          simp only []
          split
          · simp only [Channel.setDevice, hd, hs, if_true, Outcome.bind_ok]
          · rfl

/-- **C69 (part): a usable device reaches every scan.** After `set_device` with a usable device on a
cadence, every scan of every target has the device, nothing else about the cadence changes, and
reading any channel of any scan passes the channel of before, moved to this device, through the
transforms. -/
theorem C69_device_reaches_scans (o : DOps D) (devOk : Dev → Bool) (d : Dev) (hd : devOk d = true)
    (c : Cadence F D Dev P) :
    (c.setDevice devOk d).2 = .ok () ∧ (c.setDevice devOk d).1.device = d ∧
    (c.setDevice devOk d).1.targets.length = c.targets.length ∧
    ∀ k (hk : k < c.targets.length), ∃ t', (c.setDevice devOk d).1.targets[k]? = some t' ∧
      t'.name = c.targets[k].name ∧ t'.device = d ∧
      t'.scans.length = c.targets[k].scans.length ∧
      ∀ m (hm : m < c.targets[k].scans.length), ∃ s', t'.scans[m]? = some s' ∧ s'.device = d ∧
        s'.num = c.targets[k].scans[m].num ∧ s'.hdr = c.targets[k].scans[m].hdr ∧
        (devOk c.targets[k].scans[m].device = true → ∀ i, 0 ≤ i → i ≤ s'.num →
          (read o devOk s' i).2 = base o devOk c.targets[k].scans[m] i >>= fun ch =>
            applyAll c.targets[k].scans[m].pipeline { ch with device := d }) := by
  have hscan : ∀ s : Scan F D Dev P, (Scan.setDevice devOk d s).2 = .ok () := by
    intro s; simp [Scan.setDevice, hd]
  have htarget : ∀ t : Target F D Dev P, Target.setDevice devOk d t =
      (⟨t.scans.map (fun s => (Scan.setDevice devOk d s).1), t.name, d⟩, .ok ()) := by
    intro t
    unfold Target.setDevice
    rw [if_pos hd, setAll_ok _ _ (fun s _ => hscan s)]
  have hall : c.setDevice devOk d =
      (⟨c.targets.map (fun t => (Target.setDevice devOk d t).1), d⟩, .ok ()) := by
    unfold Cadence.setDevice
    rw [if_pos hd, setAll_ok _ _ (fun t _ => by rw [htarget])]
  rw [hall]
  refine ⟨rfl, rfl, by simp, ?_⟩
  intro k hk
  refine ⟨(Target.setDevice devOk d c.targets[k]).1, by simp [hk], by simp [htarget],
    by simp [htarget], by simp [htarget], ?_⟩
  intro m hm
  refine ⟨(Scan.setDevice devOk d c.targets[k].scans[m]).1, by simp [htarget, hm],
    by simp [Scan.setDevice, hd], by simp [Scan.setDevice, hd], by simp [Scan.setDevice, hd], ?_⟩
  intro hdev i h0 hi
  exact read_setDevice o devOk d hd _ hdev i h0 (by simpa [Scan.setDevice, hd] using hi)

/-- **C69 (part): an unusable device is refused** by targets and cadences and changes nothing. -/
theorem C69_bad_device_refused_partial (devOk : Dev → Bool) (d : Dev) (hd : devOk d = false)
    (t : Target F D Dev P) (c : Cadence F D Dev P) :
    t.setDevice devOk d = (t, .throws .runtimeError) ∧
      c.setDevice devOk d = (c, .throws .runtimeError) := by
  simp [Target.setDevice, Cadence.setDevice, hd]

/-- **C69 fails for scans**: a refused device is kept, and from then on no channel of the scan can be
read — although the caller got an exception from `set_device`. -/
theorem C69_refused_device_breaks_scan (o : DOps D) (devOk : Dev → Bool) (d : Dev)
    (hd : devOk d = false) (s : Scan F D Dev P) (h : Readable devOk s) (i : Int) (h0 : 0 ≤ i)
    (hi : i < s.num) :
    (Scan.setDevice devOk d s).2 = .throws .runtimeError ∧
      (read o devOk (Scan.setDevice devOk d s).1 i).2 = .throws .runtimeError := by
  refine ⟨by simp [Scan.setDevice, hd], ?_⟩
  rw [read_view]
  have e : (Scan.setDevice devOk d s).1 = { s with device := d } := by simp [Scan.setDevice, hd]
  rw [e]
  unfold view
  simp only []
  rw [if_neg (by omega)]
  unfold base
  simp only []
  cases s.cache (i + s.offset) with
  | some c => simp [Channel.setDevice, hd]
  | none =>
    obtain ⟨t, f, w, rest, hf⟩ := h.file
    unfold fresh
    simp only [hf, Outcome.bind_ok, fits_of h h0 (by omega : i ≤ s.num), if_true, Channel.setDevice,
      hd]
    rfl

/-- The example scan on device `true`; `false` is not usable. -/
example : (read ratOps id (Scan.setDevice id false exScan).1 1).2 = .throws .runtimeError :=
  (C69_refused_device_breaks_scan ratOps id false rfl exScan exScan_readable 1 (by decide)
    (by decide)).2

end Bliss.Cadence
