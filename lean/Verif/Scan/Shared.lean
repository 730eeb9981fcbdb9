import Verif.Scan.Channel
import Verif.Scan.ChannelProps
import Verif.Scan.Model
import Verif.Scan.Props
import Verif.Cadence.Model

/-!
# Copies and slices of scans (C110)

`scan` keeps the channels it has read in `std::map<int, std::shared_ptr<coarse_channel>>`
(bliss/core/include/core/scan.hpp line 133). Copying or slicing a scan copies the map, so the
channel objects are shared: what one scan does to a channel in memory is seen by the others. This
file models that sharing with an explicit heap of channel objects and shows that no program can tell
it from scans that are plain values, the model of `Verif/Scan/Model.lean`.

A channel object is a `Scan.Channel` value here; `Verif/Scan/ChannelProps.lean` (C108) is about what
is inside one. `scan::push_device` is not modelled: by C108 it changes nothing that can be seen.
-/

namespace Bliss.Scan.Shared

open Bliss.Channel (Rel)

variable {F D Dev P : Type}

/-- A scan with its map from keys to channel objects, which are addresses in the heap. The `cache`
of `body` is not used. -/
structure IScan (F D Dev P : Type) where
  body : Scan F D Dev P
  map : List (Int × Nat)

/-- `std::map::find` (scan.cpp line 220, line 280). -/
def lookup (m : List (Int × Nat)) (key : Int) : Option Nat :=
  match m with
  | [] => none
  | (k, p) :: rest => if k = key then some p else lookup rest key

/-- All scans of the program and the channel objects. -/
structure Prog (F D Dev P : Type) where
  heap : List (Channel F D Dev P)
  scans : List (IScan F D Dev P)

/-- What a program can do with scans. Numbers are positions in the order of creation. -/
inductive Op (F D Dev P : Type)
  /-- a scan opened from a file: no channels in memory -/
  | «open» (s : Scan F D Dev P)
  | copy (k : Nat)
  | slice (k : Nat) (start count : Int)
  | addTransform (k : Nat) (t : Channel F D Dev P → Outcome (Channel F D Dev P))
  | setDevice (k : Nat) (d : Dev)
  | read (k : Nat) (i : Int)
  | peek (k : Nat) (i : Int)
  | hits (k : Nat)

/-- What a call returns. -/
inductive Val (F D Dev P : Type)
  | unit
  | chan (c : Channel F D Dev P)
  | maybe (c : Option (Channel F D Dev P))
  | hits (l : List (Hit.Hit F D))

/-- Result of a call that returns nothing. -/
def wrap {α β : Type} (f : α → β) : Outcome α → Outcome β
  | .ok a => .ok (f a)
  | .throws e => .throws e
  | .ub => .ub

/-- scan.cpp lines 264-270, 281-286: `set_device` on the shared object at `p`, then the transforms on
a copy. -/
def ifinish (devOk : Dev → Bool) (heap : List (Channel F D Dev P)) (s : IScan F D Dev P) (p : Nat) :
    List (Channel F D Dev P) × Outcome (Channel F D Dev P) :=
  match heap[p]? with
  | none => (heap, .ub)
  | some c => match Channel.setDevice devOk s.body.device c with
    | .ok c' => (heap.set p c', applyAll s.body.pipeline c')
    | .throws e => (heap, .throws e)
    | .ub => (heap, .ub)

/-- `scan::read_coarse_channel`, scan.cpp lines 214-271. A channel that is not in memory is made,
put on the heap and entered in the map of this scan. -/
def iread (o : DOps D) (devOk : Dev → Bool) (heap : List (Channel F D Dev P)) (s : IScan F D Dev P)
    (i : Int) : List (Channel F D Dev P) × IScan F D Dev P × Outcome (Channel F D Dev P) :=
  if i < 0 ∨ i > s.body.num then (heap, s, .throws .outOfRange)
  else
    match lookup s.map (i + s.body.offset) with
    | some p => let r := ifinish devOk heap s p; (r.1, s, r.2)
    | none =>
      match fresh o devOk s.body i with
      | .ok c =>
        let s' := { s with map := (i + s.body.offset, heap.length) :: s.map }
        let r := ifinish devOk (heap ++ [c]) s' heap.length
        (r.1, s', r.2)
      | .throws e => (heap, s, .throws e)
      | .ub => (heap, s, .ub)

/-- `scan::peak_coarse_channel`, scan.cpp lines 274-291. -/
def ipeek (devOk : Dev → Bool) (heap : List (Channel F D Dev P)) (s : IScan F D Dev P) (i : Int) :
    List (Channel F D Dev P) × Outcome (Option (Channel F D Dev P)) :=
  if i < 0 ∨ i > s.body.num then (heap, .throws .outOfRange)
  else
    match lookup s.map (i + s.body.offset) with
    | some p => let r := ifinish devOk heap s p; (r.1, wrap some r.2)
    | none => (heap, .ok none)

/-- The loop of `scan::set_device`, scan.cpp lines 348-350, over the objects in the map; the device
has been checked. -/
def isetAll (d : Dev) (heap : List (Channel F D Dev P)) : List (Int × Nat) → List (Channel F D Dev P)
  | [] => heap
  | (_, p) :: rest => isetAll d (heap.modify p (fun c => { c with device := d })) rest

/-- `scan::hits`, scan.cpp lines 316-331, channels `i, …, i+k-1`. -/
def ihitsFrom (o : DOps D) (devOk : Dev → Bool) :
    Nat → Int → List (Channel F D Dev P) → IScan F D Dev P →
    List (Channel F D Dev P) × IScan F D Dev P × Outcome (List (Hit.Hit F D))
  | 0, _, heap, s => (heap, s, .ok [])
  | k + 1, i, heap, s =>
    match iread o devOk heap s i with
    | (heap', s', .throws e) => (heap', s', .throws e)
    | (heap', s', .ub) => (heap', s', .ub)
    | (heap', s', .ok c) =>
      match c.getHits with
      | .ub => (heap', s', .ub)
      | .throws e =>
        if isLogicError e then ihitsFrom o devOk k (i + 1) heap' s' else (heap', s', .throws e)
      | .ok hs =>
        let r := ihitsFrom o devOk k (i + 1) heap' s'
        (r.1, r.2.1, r.2.2.bind (fun rest => .ok (hs ++ rest)))

/-- One call on scans that share channel objects. -/
def step (o : DOps D) (devOk : Dev → Bool) (g : Prog F D Dev P) :
    Op F D Dev P → Prog F D Dev P × Outcome (Val F D Dev P)
  | .open s => ({ g with scans := g.scans ++ [⟨{ s with cache := fun _ => none }, []⟩] }, .ok .unit)
  | .copy k => match g.scans[k]? with
    | none => (g, .ub)
    | some s => ({ g with scans := g.scans ++ [s] }, .ok .unit)
  -- scan.cpp lines 365-381: `auto sliced_scan = *this`
  | .slice k a n => match g.scans[k]? with
    | none => (g, .ub)
    | some s => ({ g with scans := g.scans ++ [{ s with body := slice o s.body a n }] }, .ok .unit)
  | .addTransform k t => match g.scans[k]? with
    | none => (g, .ub)
    | some s => ({ g with scans := g.scans.set k { s with body := addTransform t s.body } }, .ok .unit)
  | .setDevice k d => match g.scans[k]? with
    | none => (g, .ub)
    | some s =>
      let s' := { s with body := { s.body with device := d } }
      if devOk d then
        (⟨isetAll d g.heap s.map, g.scans.set k s'⟩, .ok .unit)
      else ({ g with scans := g.scans.set k s' }, .throws .runtimeError)
  | .read k i => match g.scans[k]? with
    | none => (g, .ub)
    | some s =>
      let r := iread o devOk g.heap s i
      (⟨r.1, g.scans.set k r.2.1⟩, wrap .chan r.2.2)
  | .peek k i => match g.scans[k]? with
    | none => (g, .ub)
    | some s =>
      let r := ipeek devOk g.heap s i
      (⟨r.1, g.scans⟩, wrap .maybe r.2)
  | .hits k => match g.scans[k]? with
    | none => (g, .ub)
    | some s =>
      let r := ihitsFrom o devOk s.body.num.toNat 0 g.heap s
      (⟨r.1, g.scans.set k r.2.1⟩, wrap .hits r.2.2)

/-- Specification: the same calls on scans that are plain values. -/
def vstep (o : DOps D) (devOk : Dev → Bool) (g : List (Scan F D Dev P)) :
    Op F D Dev P → List (Scan F D Dev P) × Outcome (Val F D Dev P)
  | .open s => (g ++ [{ s with cache := fun _ => none }], .ok .unit)
  | .copy k => match g[k]? with
    | none => (g, .ub)
    | some s => (g ++ [s], .ok .unit)
  | .slice k a n => match g[k]? with
    | none => (g, .ub)
    | some s => (g ++ [slice o s a n], .ok .unit)
  | .addTransform k t => match g[k]? with
    | none => (g, .ub)
    | some s => (g.set k (addTransform t s), .ok .unit)
  | .setDevice k d => match g[k]? with
    | none => (g, .ub)
    | some s =>
      let r := Cadence.Scan.setDevice devOk d s
      (g.set k r.1, wrap (fun _ => .unit) r.2)
  | .read k i => match g[k]? with
    | none => (g, .ub)
    | some s => let r := read o devOk s i; (g.set k r.1, wrap .chan r.2)
  | .peek k i => match g[k]? with
    | none => (g, .ub)
    | some s => let r := peek devOk s i; (g.set k r.1, wrap .maybe r.2)
  | .hits k => match g[k]? with
    | none => (g, .ub)
    | some s => let r := hits o devOk s; (g.set k r.1, wrap .hits r.2)

/-- What each call of a program on sharing scans gives; nothing is said about what follows undefined
behaviour. -/
def run (o : DOps D) (devOk : Dev → Bool) :
    Prog F D Dev P → List (Op F D Dev P) → List (Outcome (Val F D Dev P))
  | _, [] => []
  | g, op :: ops => match step o devOk g op with
    | (_, .ub) => [.ub]
    | (g', r) => r :: run o devOk g' ops

/-- What each call of a program gives when scans are values. -/
def vrun (o : DOps D) (devOk : Dev → Bool) :
    List (Scan F D Dev P) → List (Op F D Dev P) → List (Outcome (Val F D Dev P))
  | _, [] => []
  | g, op :: ops => match vstep o devOk g op with
    | (_, .ub) => [.ub]
    | (g', r) => r :: vrun o devOk g' ops

/-! ## Simulation -/

/-- Equal but for the device. -/
def Alike (c c' : Channel F D Dev P) : Prop := ∀ d : Dev, { c with device := d } = { c' with device := d }

/-- The scan with its objects stands for the value. -/
structure RScan (heap : List (Channel F D Dev P)) (s : IScan F D Dev P) (v : Scan F D Dev P) :
    Prop where
  body : ∀ x : Int → Option (Channel F D Dev P), { s.body with cache := x } = { v with cache := x }
  absent : ∀ key, lookup s.map key = none → v.cache key = none
  present : ∀ key p, lookup s.map key = some p →
    ∃ c c', heap[p]? = some c ∧ v.cache key = some c' ∧ Alike c c'

/-- Objects are only changed in their device. -/
def Ext (heap heap' : List (Channel F D Dev P)) : Prop :=
  ∀ (p : Nat) c, heap[p]? = some c → ∃ c', heap'[p]? = some c' ∧ Alike c' c

theorem Alike.refl (c : Channel F D Dev P) : Alike c c := fun _ => rfl
theorem Alike.symm {c c' : Channel F D Dev P} (h : Alike c c') : Alike c' c := fun d => (h d).symm
theorem Alike.trans {a b c : Channel F D Dev P} (h : Alike a b) (h' : Alike b c) : Alike a c :=
  fun d => (h d).trans (h' d)

theorem Ext.refl (heap : List (Channel F D Dev P)) : Ext heap heap := fun _ c h => ⟨c, h, .refl c⟩

theorem Ext.trans {a b c : List (Channel F D Dev P)} (h : Ext a b) (h' : Ext b c) : Ext a c := by
  intro p x hx
  obtain ⟨y, hy, i⟩ := h p x hx
  obtain ⟨z, hz, j⟩ := h' p y hy
  exact ⟨z, hz, j.trans i⟩

theorem Ext.append (heap : List (Channel F D Dev P)) (c : Channel F D Dev P) :
    Ext heap (heap ++ [c]) := fun _ x h => ⟨x, Deferred.get_app c h, .refl x⟩

theorem Ext.set {heap : List (Channel F D Dev P)} {p : Nat} {c c' : Channel F D Dev P}
    (hc : heap[p]? = some c) (h : Alike c' c) : Ext heap (heap.set p c') := by
  intro q x hx
  by_cases hq : p = q
  · subst hq
    rw [hc] at hx
    cases hx
    exact ⟨c', List.getElem?_set_self (List.getElem?_eq_some_iff.mp hc).1, h⟩
  · exact ⟨x, by rw [List.getElem?_set_ne hq]; exact hx, .refl x⟩

theorem RScan.mono {heap heap' : List (Channel F D Dev P)} (h : Ext heap heap')
    {s : IScan F D Dev P} {v : Scan F D Dev P} (hs : RScan heap s v) : RScan heap' s v := by
  refine ⟨hs.body, hs.absent, fun key p hp => ?_⟩
  obtain ⟨c, c', hc, hv, ha⟩ := hs.present key p hp
  obtain ⟨d, hd, hda⟩ := h p c hc
  exact ⟨d, c', hd, hv, hda.trans ha⟩

/-- Replacing a channel of the value by an alike one. -/
theorem RScan.update {heap : List (Channel F D Dev P)} {s : IScan F D Dev P} {v : Scan F D Dev P}
    (hs : RScan heap s v) {key : Int} {p : Nat} (hp : lookup s.map key = some p)
    {c d : Channel F D Dev P} (hc : heap[p]? = some c) (ha : Alike c d) :
    RScan heap s { v with cache := fun k => if k = key then some d else v.cache k } := by
  refine ⟨?_, fun k hk => ?_, fun k q hq => ?_⟩
  · exact hs.body
  · have : k ≠ key := by rintro rfl; rw [hp] at hk; cases hk
    simp [this, hs.absent k hk]
  · by_cases hk : k = key
    · subst hk
      rw [hp] at hq
      cases hq
      exact ⟨c, d, hc, by simp, ha⟩
    · obtain ⟨x, y, hx, hy, hxy⟩ := hs.present k q hq
      exact ⟨x, y, hx, by simp [hk, hy], hxy⟩

theorem setDevice_alike {devOk : Dev → Bool} {d : Dev} {c c' : Channel F D Dev P} (h : Alike c c') :
    Channel.setDevice devOk d c = Channel.setDevice devOk d c' := by
  unfold Channel.setDevice
  rw [h d]

theorem body_fields {heap : List (Channel F D Dev P)} {s : IScan F D Dev P} {v : Scan F D Dev P}
    (h : RScan heap s v) : s.body.device = v.device ∧ s.body.pipeline = v.pipeline ∧
      s.body.num = v.num ∧ s.body.offset = v.offset := by
  have := h.body (fun _ => none)
  simp only [Scan.mk.injEq] at this
  obtain ⟨-, -, h1, -, -, -, -, h2, h3, -, -, h4⟩ := this
  exact ⟨h4, h1, h2, h3⟩

theorem fresh_body (o : DOps D) (devOk : Dev → Bool) {heap : List (Channel F D Dev P)}
    {s : IScan F D Dev P} {v : Scan F D Dev P} (h : RScan heap s v) (i : Int) :
    fresh o devOk s.body i = fresh o devOk v i := by
  have := h.body (fun _ => none)
  have h1 : fresh o devOk { s.body with cache := fun _ => none } i = fresh o devOk s.body i := rfl
  have h2 : fresh o devOk { v with cache := fun _ => none } i = fresh o devOk v i := rfl
  rw [← h1, ← h2, this]

theorem finish_sim {devOk : Dev → Bool} {heap : List (Channel F D Dev P)} {s : IScan F D Dev P}
    {v : Scan F D Dev P} (h : RScan heap s v) {key : Int} {p : Nat} (hp : lookup s.map key = some p)
    {c c' : Channel F D Dev P} (hc : heap[p]? = some c) (ha : Alike c c') :
    (ifinish devOk heap s p).2 = (finish devOk v key c').2 ∧ Ext heap (ifinish devOk heap s p).1 ∧
      RScan (ifinish devOk heap s p).1 s (finish devOk v key c').1 := by
  obtain ⟨hd, hpl, -, -⟩ := body_fields h
  unfold ifinish finish
  simp only [hc, hd, hpl]
  rw [setDevice_alike ha]
  unfold Channel.setDevice
  by_cases hok : devOk v.device = true
  · simp only [hok, if_true]
    have he : Ext heap (heap.set p { c' with device := v.device }) :=
      .set hc (fun d => (ha d).symm)
    exact ⟨by trivial, he, (h.mono he).update hp
      (List.getElem?_set_self (List.getElem?_eq_some_iff.mp hc).1) (.refl _)⟩
  · simp only [hok]
    exact ⟨rfl, .refl _, h.update hp hc ha⟩

/-- The simulation for reading. -/
theorem read_sim (o : DOps D) {devOk : Dev → Bool} {heap : List (Channel F D Dev P)}
    {s : IScan F D Dev P} {v : Scan F D Dev P} (h : RScan heap s v) (i : Int) :
    (iread o devOk heap s i).2.2 = (read o devOk v i).2 ∧ Ext heap (iread o devOk heap s i).1 ∧
      RScan (iread o devOk heap s i).1 (iread o devOk heap s i).2.1 (read o devOk v i).1 := by
  obtain ⟨-, -, hn, ho⟩ := body_fields h
  unfold iread read
  simp only [hn, ho]
  split
  · exact ⟨rfl, .refl _, h⟩
  · cases hl : lookup s.map (i + v.offset) with
    | some p =>
      obtain ⟨c, c', hc, hv, ha⟩ := h.present _ _ hl
      simp only [hv]
      exact finish_sim h hl hc ha
    | none =>
      simp only [h.absent _ hl, fresh_body o devOk h i]
      cases hf : fresh o devOk v i with
      | throws e => exact ⟨rfl, .refl _, h⟩
      | ub => exact ⟨rfl, .refl _, h⟩
      | ok c =>
        dsimp only
        set s' : IScan F D Dev P := { s with map := (i + v.offset, heap.length) :: s.map } with hs'
        set v' : Scan F D Dev P :=
          { v with cache := fun k => if k = i + v.offset then some c else v.cache k } with hv'
        have hrel : RScan (heap ++ [c]) s' v' := by
          refine ⟨?_, fun k hk => ?_, fun k q hq => ?_⟩
          · exact h.body
          · simp only [hs', lookup] at hk
            split at hk
            · cases hk
            · next hne =>
              simp only [hv', if_neg (Ne.symm hne)]
              exact h.absent k hk
          · simp only [hs', lookup] at hq
            split at hq
            · next heq =>
              cases hq
              subst heq
              exact ⟨c, c, by simp, by simp [hv'], .refl c⟩
            · next hne =>
              obtain ⟨x, y, hx, hy, hxy⟩ := h.present k q hq
              exact ⟨x, y, Deferred.get_app c hx, by simp only [hv', if_neg (Ne.symm hne)]; exact hy,
                hxy⟩
        have hl' : lookup s'.map (i + v.offset) = some heap.length := by simp [hs', lookup]
        have hfin := finish_sim (devOk := devOk) hrel hl' (c := c) (c' := c) (by simp) (.refl c)
        have hsame : finish devOk v' (i + v.offset) c = finish devOk v (i + v.offset) c := by
          have : ∀ x : Channel F D Dev P,
              (fun k => if k = i + v.offset then some x else v'.cache k) =
              (fun k => if k = i + v.offset then some x else v.cache k) := by
            intro x
            funext k
            by_cases hk : k = i + v.offset
            · simp [hk]
            · simp [hk, hv']
          unfold finish Channel.setDevice
          by_cases hok : devOk v.device = true
          · simp only [hv', hok, if_true] at *
            simp [this]
          · simp only [hv', hok] at *
            simp [this]
        rw [hsame] at hfin
        exact ⟨hfin.1, (Ext.append _ _).trans hfin.2.1, hfin.2.2⟩

theorem hits_sim (o : DOps D) {devOk : Dev → Bool} (k : Nat) :
    ∀ (i : Int) {heap : List (Channel F D Dev P)} {s : IScan F D Dev P} {v : Scan F D Dev P},
      RScan heap s v →
      (ihitsFrom o devOk k i heap s).2.2 = (hitsFrom o devOk k i v).2 ∧
        Ext heap (ihitsFrom o devOk k i heap s).1 ∧
        RScan (ihitsFrom o devOk k i heap s).1 (ihitsFrom o devOk k i heap s).2.1
          (hitsFrom o devOk k i v).1 := by
  induction k with
  | zero => intro i heap s v h; exact ⟨rfl, .refl _, h⟩
  | succ k ih =>
    intro i heap s v h
    obtain ⟨h1, h2, h3⟩ := read_sim o (devOk := devOk) h i
    unfold ihitsFrom hitsFrom
    generalize iread o devOk heap s i = a at *
    generalize read o devOk v i = b at *
    obtain ⟨heap', s', r⟩ := a
    obtain ⟨v', r'⟩ := b
    dsimp only at h1 h2 h3
    subst h1
    cases r with
    | throws e => exact ⟨rfl, h2, h3⟩
    | ub => exact ⟨rfl, h2, h3⟩
    | ok c =>
      dsimp only
      obtain ⟨i1, i2, i3⟩ := ih (i + 1) h3
      cases c.getHits with
      | ub => exact ⟨rfl, h2, h3⟩
      | throws e =>
        dsimp only
        split
        · exact ⟨i1, h2.trans i2, i3⟩
        · exact ⟨rfl, h2, h3⟩
      | ok hs =>
        dsimp only
        rw [i1]
        exact ⟨rfl, h2.trans i2, i3⟩

theorem setAll_ext (d : Dev) (m : List (Int × Nat)) :
    ∀ heap : List (Channel F D Dev P), Ext heap (isetAll d heap m) := by
  induction m with
  | nil => intro heap; exact .refl _
  | cons e m ih =>
    intro heap
    obtain ⟨k, p⟩ := e
    refine Ext.trans ?_ (ih _)
    intro q x hx
    by_cases hq : p = q
    · subst hq
      exact ⟨{ x with device := d }, by simp [hx], fun _ => rfl⟩
    · exact ⟨x, by simp [hq, hx], .refl x⟩

/-- The program state stands for the list of scan values. -/
def R (g : Prog F D Dev P) (v : List (Scan F D Dev P)) : Prop := Rel (RScan g.heap) g.scans v

theorem R.mono {heap heap' : List (Channel F D Dev P)} {a : List (IScan F D Dev P)}
    {v : List (Scan F D Dev P)} (h : Rel (RScan heap) a v) (he : Ext heap heap') :
    Rel (RScan heap') a v := Rel.mono h fun _ _ h => h.mono he

theorem step_sim (o : DOps D) (devOk : Dev → Bool) {g : Prog F D Dev P}
    {v : List (Scan F D Dev P)} (h : R g v) (op : Op F D Dev P) :
    (step o devOk g op).2 = (vstep o devOk v op).2 ∧
      R (step o devOk g op).1 (vstep o devOk v op).1 := by
  cases op with
  | «open» s =>
    refine ⟨rfl, Rel.append h ⟨fun _ => rfl, fun _ _ => rfl, fun _ _ hp => by simp [lookup] at hp⟩⟩
  | copy k =>
    simp only [step, vstep]
    cases hk : g.scans[k]? with
    | none => simp only [Rel.none h hk]; exact ⟨by trivial, h⟩
    | some s =>
      obtain ⟨w, hw, hr⟩ := Rel.get h hk
      simp only [hw]
      exact ⟨by trivial, Rel.append h hr⟩
  | slice k a n =>
    simp only [step, vstep]
    cases hk : g.scans[k]? with
    | none => simp only [Rel.none h hk]; exact ⟨by trivial, h⟩
    | some s =>
      obtain ⟨w, hw, hr⟩ := Rel.get h hk
      simp only [hw]
      refine ⟨by trivial, Rel.append h ⟨fun x => ?_, hr.absent, hr.present⟩⟩
      have h1 := hr.body x
      have h2 : { slice o s.body a n with cache := x } =
          slice o { s.body with cache := x } a n := rfl
      have h3 : { slice o w a n with cache := x } = slice o { w with cache := x } a n := rfl
      rw [h2, h3, h1]
  | addTransform k t =>
    simp only [step, vstep]
    cases hk : g.scans[k]? with
    | none => simp only [Rel.none h hk]; exact ⟨by trivial, h⟩
    | some s =>
      obtain ⟨w, hw, hr⟩ := Rel.get h hk
      simp only [hw]
      refine ⟨by trivial, Rel.set h k ⟨fun x => ?_, hr.absent, hr.present⟩⟩
      have h1 := hr.body x
      have h2 : { addTransform t s.body with cache := x } =
          addTransform t { s.body with cache := x } := rfl
      have h3 : { addTransform t w with cache := x } = addTransform t { w with cache := x } := rfl
      rw [h2, h3, h1]
  | setDevice k d =>
    simp only [step, vstep]
    cases hk : g.scans[k]? with
    | none => simp only [Rel.none h hk]; exact ⟨by trivial, h⟩
    | some s =>
      obtain ⟨w, hw, hr⟩ := Rel.get h hk
      simp only [hw, Cadence.Scan.setDevice]
      have hb : ∀ x : Int → Option (Channel F D Dev P),
          { s.body with device := d, cache := x } = { w with device := d, cache := x } := by
        intro x
        have h1 := hr.body x
        have h2 : { s.body with device := d, cache := x } =
            { ({ s.body with cache := x } : Scan F D Dev P) with device := d } := rfl
        rw [h2, h1]
      by_cases hd : devOk d = true
      · simp only [hd, if_true]
        have he := setAll_ext d s.map g.heap
        refine ⟨by trivial, Rel.set (R.mono h he) k ?_⟩
        have hr' := hr.mono he
        refine ⟨hb, fun key hk => by simp [hr'.absent key hk], fun key p hp => ?_⟩
        obtain ⟨c, c', hc, hv, ha⟩ := hr'.present key p hp
        exact ⟨c, { c' with device := d }, hc, by simp [hv], fun e => ha e⟩
      · simp only [hd]
        exact ⟨rfl, Rel.set h k ⟨hb, hr.absent, hr.present⟩⟩
  | read k i =>
    simp only [step, vstep]
    cases hk : g.scans[k]? with
    | none => simp only [Rel.none h hk]; exact ⟨by trivial, h⟩
    | some s =>
      obtain ⟨w, hw, hr⟩ := Rel.get h hk
      simp only [hw]
      obtain ⟨h1, h2, h3⟩ := read_sim o (devOk := devOk) hr i
      exact ⟨by rw [h1], Rel.set (R.mono h h2) k h3⟩
  | peek k i =>
    simp only [step, vstep]
    cases hk : g.scans[k]? with
    | none => simp only [Rel.none h hk]; exact ⟨by trivial, h⟩
    | some s =>
      obtain ⟨w, hw, hr⟩ := Rel.get h hk
      simp only [hw]
      have hself : R g (v.set k w) := by
        obtain ⟨hi, rfl⟩ := List.getElem?_eq_some_iff.mp hw
        rwa [List.set_getElem_self]
      obtain ⟨-, -, hn, ho⟩ := body_fields hr
      simp only [ipeek, peek, hn, ho]
      by_cases hrange : i < 0 ∨ i > w.num
      · simp only [hrange, if_true]
        exact ⟨by trivial, hself⟩
      · simp only [hrange, if_false]
        cases hl : lookup s.map (i + w.offset) with
        | none =>
          simp only [hr.absent _ hl]
          exact ⟨by trivial, hself⟩
        | some p =>
          obtain ⟨c, c', hc, hv, ha⟩ := hr.present _ _ hl
          simp only [hv]
          obtain ⟨h1, h2, h3⟩ := finish_sim (devOk := devOk) hr hl hc ha
          refine ⟨?_, ?_⟩
          · rw [h1]
            cases (finish devOk w (i + w.offset) c').2 <;> rfl
          · have := Rel.set (R.mono h h2) k h3
            obtain ⟨hi, rfl⟩ := List.getElem?_eq_some_iff.mp hk
            rwa [List.set_getElem_self] at this
  | hits k =>
    simp only [step, vstep]
    cases hk : g.scans[k]? with
    | none => simp only [Rel.none h hk]; exact ⟨by trivial, h⟩
    | some s =>
      obtain ⟨w, hw, hr⟩ := Rel.get h hk
      obtain ⟨-, -, hn, -⟩ := body_fields hr
      simp only [hw, hits, hn]
      obtain ⟨h1, h2, h3⟩ := hits_sim o (devOk := devOk) w.num.toNat 0 hr
      exact ⟨by rw [h1], Rel.set (R.mono h h2) k h3⟩

theorem run_sim (o : DOps D) (devOk : Dev → Bool) (ops : List (Op F D Dev P)) :
    ∀ {g : Prog F D Dev P} {v : List (Scan F D Dev P)}, R g v →
      run o devOk g ops = vrun o devOk v ops := by
  induction ops with
  | nil => intros; rfl
  | cons op ops ih =>
    intro g v h
    obtain ⟨h1, h2⟩ := step_sim o devOk h op
    unfold run vrun
    generalize step o devOk g op = a at *
    generalize vstep o devOk v op = b at *
    obtain ⟨g', r⟩ := a
    obtain ⟨v', r'⟩ := b
    dsimp only at *
    subst h1
    cases r with
    | ub => rfl
    | ok x => simp [ih h2]
    | throws e => simp [ih h2]

/-- **C110**: copies and slices of a scan are independent. The channel objects in memory are shared
between them, but every program that opens, copies, slices, reads, searches and moves scans sees
exactly what it would see if every scan had its own. -/
theorem C110_copies_are_independent (o : DOps D) (devOk : Dev → Bool) (ops : List (Op F D Dev P)) :
    run o devOk ⟨[], []⟩ ops = vrun o devOk [] ops :=
  run_sim o devOk ops ⟨rfl, by simp⟩

/-- The call is on scan `k`, other than copying or slicing it. -/
def Op.uses (k : Nat) : Op F D Dev P → Bool
  | .addTransform j _ | .setDevice j _ | .read j _ | .peek j _ | .hits j => k == j
  | _ => false

/-- The state after a program, unless it met undefined behaviour. -/
def exec (o : DOps D) (devOk : Dev → Bool) :
    Prog F D Dev P → List (Op F D Dev P) → Option (Prog F D Dev P)
  | g, [] => some g
  | g, op :: ops => match step o devOk g op with
    | (_, .ub) => none
    | (g', _) => exec o devOk g' ops

theorem exec_cons {o : DOps D} {devOk : Dev → Bool} {g g' : Prog F D Dev P} {op : Op F D Dev P}
    {ops : List (Op F D Dev P)} (h : exec o devOk g (op :: ops) = some g') :
    exec o devOk (step o devOk g op).1 ops = some g' := by
  unfold exec at h
  generalize step o devOk g op = a at *
  obtain ⟨x, r⟩ := a
  cases r <;> simp_all

theorem vstep_other {o : DOps D} {devOk : Dev → Bool} {v : List (Scan F D Dev P)}
    {op : Op F D Dev P} {k : Nat} (hk : k < v.length) (h : op.uses k = false) :
    (vstep o devOk v op).1[k]? = v[k]? := by
  cases op <;> simp only [vstep, Op.uses] at * <;> (repeat' split) <;>
    first
      | rfl
      | exact List.getElem?_append_left hk
      | exact List.getElem?_set_ne (fun e => by simp [e] at h)

theorem vstep_length {o : DOps D} {devOk : Dev → Bool} {v : List (Scan F D Dev P)}
    (op : Op F D Dev P) : v.length ≤ (vstep o devOk v op).1.length := by
  cases op <;> simp only [vstep] <;> (repeat' split) <;> simp

/-- After any program the state stands for scan values, and a scan that was not used in between is
the same value. -/
theorem exec_sim {o : DOps D} {devOk : Dev → Bool} {k : Nat} (ops : List (Op F D Dev P)) :
    ∀ {g g' : Prog F D Dev P} {v : List (Scan F D Dev P)}, R g v → exec o devOk g ops = some g' →
      ∃ w, R g' w ∧ (k < v.length → (∀ op ∈ ops, op.uses k = false) → w[k]? = v[k]?) := by
  induction ops with
  | nil => intro g g' v h hg; cases hg; exact ⟨v, h, fun _ _ => rfl⟩
  | cons op ops ih =>
    intro g g' v h hg
    obtain ⟨w, hw, hu⟩ := ih (step_sim o devOk h op).2 (exec_cons hg)
    refine ⟨w, hw, fun hk hops => ?_⟩
    rw [hu (Nat.lt_of_lt_of_le hk (vstep_length op)) (fun x hx => hops x (by simp [hx])),
      vstep_other hk (hops op (by simp))]

/-- **C110**: what a scan gives does not depend on what is done with its copies and slices. Between
two states with no call on scan `k` itself, reading a channel, peeking at one and searching give
the same. -/
theorem C110_undisturbed (o : DOps D) (devOk : Dev → Bool) {before between : List (Op F D Dev P)}
    {g g' : Prog F D Dev P} {k : Nat} (hg : exec o devOk ⟨[], []⟩ before = some g)
    (hk : k < g.scans.length) (hops : ∀ op ∈ between, op.uses k = false)
    (hg' : exec o devOk g between = some g') (i : Int) :
    (step o devOk g' (.read k i)).2 = (step o devOk g (.read k i)).2 ∧
    (step o devOk g' (.peek k i)).2 = (step o devOk g (.peek k i)).2 ∧
    (step o devOk g' (.hits k)).2 = (step o devOk g (.hits k)).2 := by
  obtain ⟨v, hv, -⟩ := exec_sim (k := k) before (v := []) ⟨rfl, by simp⟩ hg
  obtain ⟨w, hw, hs⟩ := exec_sim (k := k) between hv hg'
  have hsame := hs (hv.1 ▸ hk) hops
  refine ⟨?_, ?_, ?_⟩ <;>
    · rw [(step_sim o devOk hv _).1, (step_sim o devOk hw _).1]
      simp only [vstep, hsame]
      split <;> rfl

/-! ## A concrete program -/

/-- A scan is opened, read, copied and sliced; the copy is moved, given a transform and read, so that
the object of channel 2, which all three scans share, changes. -/
def exBefore : List (Op ℚ ℚ Bool Unit) := [.open exScan, .read 0 2, .copy 0, .slice 0 1 2]

/-- Calls on the copy and the slice. -/
def exBetween : List (Op ℚ ℚ Bool Unit) :=
  [.setDevice 1 false, .addTransform 1 (fun c => .ok { c with fch1 := c.fch1 + 1 }), .read 1 2,
   .read 2 1, .setDevice 2 true, .read 2 0]

/-- Hypotheses of `C110_undisturbed`: the programs run, the three scans share one object, and the
later call on the slice makes a second. -/
example : ∃ g g', exec ratOps (fun _ => true) ⟨[], []⟩ exBefore = some g ∧
    exec ratOps (fun _ => true) g exBetween = some g' ∧ 0 < g.scans.length ∧
    (∀ op ∈ exBetween, op.uses 0 = false) ∧
    g.scans.map (fun s => s.map) = [[(2, 0)], [(2, 0)], [(2, 0)]] ∧
    g'.scans.map (fun s => s.map) = [[(2, 0)], [(2, 0)], [(1, 1), (2, 0)]] ∧
    g.heap.map (fun c => c.device) = [true] ∧ g'.heap.map (fun c => c.device) = [true, true] := by
  refine ⟨_, _, rfl, rfl, by decide, ?_, rfl, rfl, rfl, rfl⟩
  simp [exBetween, Op.uses]

/-- The copy sees its own device and transform, the original does not. -/
example : ∃ a b, (run ratOps (fun _ => true) ⟨[], []⟩ (exBefore ++ exBetween ++
      [.read 0 2, .read 1 2])).drop 10 = [.ok (.chan a), .ok (.chan b)] ∧
    (a.device, b.device) = (true, false) ∧ (a.fch1 - b.fch1 : ℚ) = -1 := by
  refine ⟨_, _, rfl, rfl, ?_⟩
  show (_ : ℚ) - (_ + 1) = -1
  ring

end Bliss.Scan.Shared
