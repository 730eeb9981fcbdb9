import Verif.Scan.Channel

/-! # Coarse channel objects behave as values (C108, C109) -/

namespace Bliss.Channel

open Bliss.Deferred (Cell Policy)

variable {A L N Dev : Type}

/-- Functions handed to the objects give the same at every call. -/
structure Steady (E : Env A L Dev) : Prop where
  arr : ∀ f k, E.arr f k = E.arr f 0
  hits : ∀ f k, E.hits f k = E.hits f 0
  plane : ∀ f k, E.plane f k = E.plane f 0

/-- Moving to a device forgets where the array was before. -/
def MoveLast (E : Env A L Dev) : Prop := ∀ d d' a, E.move d (E.move d' a) = E.move d a

/-! ## Lists related position by position -/

/-- Same length, and related position by position. -/
def Rel {α β : Type} (r : α → β → Prop) (a : List α) (b : List β) : Prop :=
  a.length = b.length ∧ ∀ (i : Nat) x y, a[i]? = some x → b[i]? = some y → r x y

theorem Rel.get {α β : Type} {r : α → β → Prop} {a : List α} {b : List β} (h : Rel r a b) {i : Nat}
    {x : α} (hx : a[i]? = some x) : ∃ y, b[i]? = some y ∧ r x y := by
  have hi : i < a.length := (List.getElem?_eq_some_iff.mp hx).1
  have hj : i < b.length := h.1 ▸ hi
  exact ⟨b[i], List.getElem?_eq_getElem hj, h.2 i _ _ hx (List.getElem?_eq_getElem hj)⟩

theorem Rel.none {α β : Type} {r : α → β → Prop} {a : List α} {b : List β} (h : Rel r a b) {i : Nat}
    (hx : a[i]? = none) : b[i]? = none := by
  rw [List.getElem?_eq_none_iff] at *
  exact h.1 ▸ hx

theorem Rel.mono {α β : Type} {r r' : α → β → Prop} {a : List α} {b : List β} (h : Rel r a b)
    (hr : ∀ x y, r x y → r' x y) : Rel r' a b :=
  ⟨h.1, fun i x y hx hy => hr _ _ (h.2 i x y hx hy)⟩

theorem Rel.append {α β : Type} {r : α → β → Prop} {a : List α} {b : List β} (h : Rel r a b)
    {x : α} {y : β} (hxy : r x y) : Rel r (a ++ [x]) (b ++ [y]) := by
  refine ⟨by simp [h.1], fun i x' y' hx hy => ?_⟩
  rcases Deferred.app_get hx with hx | ⟨hi, rfl⟩
  · have hi : i < a.length := (List.getElem?_eq_some_iff.mp hx).1
    rw [List.getElem?_append_left (h.1 ▸ hi)] at hy
    exact h.2 i _ _ hx hy
  · rw [hi, h.1] at hy
    simp at hy
    exact hy ▸ hxy

theorem Rel.set {α β : Type} {r : α → β → Prop} {a : List α} {b : List β} (h : Rel r a b)
    (i : Nat) {x : α} {y : β} (hxy : r x y) : Rel r (a.set i x) (b.set i y) := by
  refine ⟨by simp [h.1], fun j x' y' hx hy => ?_⟩
  rw [List.getElem?_set] at hx hy
  by_cases hij : i = j
  · subst hij
    simp only [if_true] at hx hy
    split at hx <;> split at hy <;> simp_all
  · simp only [hij, if_false] at hx hy
    exact h.2 j _ _ hx hy

/-- Replacing on the left only, by something related to the same thing. -/
theorem Rel.setLeft {α β : Type} {r : α → β → Prop} {a : List α} {b : List β} (h : Rel r a b)
    {i : Nat} {x : α} {y : β} (hy : b[i]? = some y) (hxy : r x y) : Rel r (a.set i x) b := by
  have := h.set i hxy
  obtain ⟨hi, rfl⟩ := List.getElem?_eq_some_iff.mp hy
  rwa [List.set_getElem_self] at this

/-! ## What a cell stands for -/

/-- An array is the value of the source, perhaps moved. -/
def IsMoved (E : Env A L Dev) (a x : A) : Prop := a = x ∨ ∃ d, a = E.move d x

/-- The cell stands for the source. -/
def RepA (E : Env A L Dev) : Cell A → Src A → Prop
  | .fn f, s => s = .fn f
  | .arr a, s => ∃ x, s.eval (E.arr · 0) = .ok x ∧ IsMoved E a x

/-- The deferred array stands for the source; a null one for none. -/
def RObj (E : Env A L Dev) (cells : List (Cell A)) (o : DObj Dev) (s : Option (Src A)) : Prop :=
  match o.cell, s with
  | none, none => True
  | some c, some x => ∃ cell, cells[c]? = some cell ∧ RepA E cell x
  | _, _ => False

def RFl (E : Env A L Dev) (a x : A × A × A) : Prop :=
  IsMoved E a.1 x.1 ∧ IsMoved E a.2.1 x.2.1 ∧ IsMoved E a.2.2 x.2.2

def RPl (E : Env A L Dev) (cells : List (Cell A)) (p : PObj A Dev) (v : VPlane A Dev) : Prop :=
  RObj E cells p.drifts (some v.drifts) ∧ RFl E p.flags v.flags ∧ p.device = v.device

def RepH (E : Env A L Dev) : HCell L → Src L → Prop
  | .fn f, s => s = .fn f
  | .val l, s => s.eval (E.hits · 0) = .ok l

def RepP (E : Env A L Dev) (cells : List (Cell A)) : PCell A Dev → Src (Src A × A × A × A) → Prop
  | .fn f, s => s = .fn f
  | .val p, .val (x, fl) => RObj E cells p.drifts (some x) ∧ RFl E p.flags fl
  | .val _, .fn _ => False

def RHits (E : Env A L Dev) (hcells : List (HCell L)) (h : Option Nat) (s : Option (Src L)) : Prop :=
  match h, s with
  | none, none => True
  | some c, some x => ∃ cell, hcells[c]? = some cell ∧ RepH E cell x
  | _, _ => False

def RPlane (E : Env A L Dev) (cells : List (Cell A)) (pcells : List (PCell A Dev)) (h : Option Nat)
    (s : Option (Src (Src A × A × A × A))) : Prop :=
  match h, s with
  | none, none => True
  | some c, some x => ∃ cell, pcells[c]? = some cell ∧ RepP E cells cell x
  | _, _ => False

structure RChan (E : Env A L Dev) (cells : List (Cell A)) (hcells : List (HCell L))
    (pcells : List (PCell A Dev)) (c : Chan N Dev) (v : VChan A L N Dev) : Prop where
  data : RObj E cells c.data v.data
  mask : RObj E cells c.mask v.mask
  noise : c.noise = v.noise
  plane : RPlane E cells pcells c.plane v.plane
  hits : RHits E hcells c.hits v.hits
  device : c.device = v.device

/-- The objects with their shared cells stand for the values. -/
structure R (E : Env A L Dev) (s : State A L N Dev) (v : VState A L N Dev) : Prop where
  chans : Rel (RChan E s.cells s.hcells s.pcells) s.chans v.chans
  planes : Rel (RPl E s.cells) s.planes v.planes

/-! ## Cells only change within what they stand for -/

def Ext (E : Env A L Dev) (cells cells' : List (Cell A)) : Prop :=
  ∀ (c : Nat) cell, cells[c]? = some cell →
    ∃ cell', cells'[c]? = some cell' ∧ ∀ s, RepA E cell s → RepA E cell' s

def ExtH (E : Env A L Dev) (h h' : List (HCell L)) : Prop :=
  ∀ (c : Nat) cell, h[c]? = some cell → ∃ cell', h'[c]? = some cell' ∧ ∀ s, RepH E cell s → RepH E cell' s

def ExtP (E : Env A L Dev) (cells cells' : List (Cell A)) (h h' : List (PCell A Dev)) : Prop :=
  ∀ (c : Nat) cell, h[c]? = some cell →
    ∃ cell', h'[c]? = some cell' ∧ ∀ s, RepP E cells cell s → RepP E cells' cell' s

theorem Ext.refl (E : Env A L Dev) (cells : List (Cell A)) : Ext E cells cells :=
  fun _ cell h => ⟨cell, h, fun _ h => h⟩

theorem Ext.trans {E : Env A L Dev} {c₁ c₂ c₃ : List (Cell A)} (h : Ext E c₁ c₂) (h' : Ext E c₂ c₃) :
    Ext E c₁ c₃ := by
  intro c cell hc
  obtain ⟨cell', hc', i⟩ := h c cell hc
  obtain ⟨cell'', hc'', j⟩ := h' c cell' hc'
  exact ⟨cell'', hc'', fun s hs => j s (i s hs)⟩

theorem Ext.append (E : Env A L Dev) (cells : List (Cell A)) (x : Cell A) :
    Ext E cells (cells ++ [x]) :=
  fun _ cell h => ⟨cell, Deferred.get_app x h, fun _ h => h⟩

theorem ExtH.refl (E : Env A L Dev) (h : List (HCell L)) : ExtH E h h :=
  fun _ cell h => ⟨cell, h, fun _ h => h⟩

theorem ExtH.append (E : Env A L Dev) (h : List (HCell L)) (x : HCell L) : ExtH E h (h ++ [x]) :=
  fun _ cell h => ⟨cell, Deferred.get_app x h, fun _ h => h⟩

theorem RObj.mono {E : Env A L Dev} {cells cells' : List (Cell A)} (h : Ext E cells cells')
    {o : DObj Dev} {s : Option (Src A)} (ho : RObj E cells o s) : RObj E cells' o s := by
  unfold RObj at *
  split at ho
  · trivial
  · obtain ⟨cell, hc, hr⟩ := ho
    obtain ⟨cell', hc', i⟩ := h _ _ hc
    exact ⟨cell', hc', i _ hr⟩
  · exact ho.elim

theorem RepP.mono {E : Env A L Dev} {cells cells' : List (Cell A)} (h : Ext E cells cells')
    {p : PCell A Dev} {s : Src (Src A × A × A × A)} (hp : RepP E cells p s) : RepP E cells' p s := by
  cases p with
  | fn f => exact hp
  | val p =>
    cases s with
    | fn f => exact hp
    | val x => exact ⟨hp.1.mono h, hp.2⟩

theorem ExtP.of {E : Env A L Dev} {cells cells' : List (Cell A)} (h : Ext E cells cells')
    (p : List (PCell A Dev)) : ExtP E cells cells' p p :=
  fun _ cell hc => ⟨cell, hc, fun _ hs => hs.mono h⟩

theorem ExtP.append (E : Env A L Dev) (cells : List (Cell A)) (p : List (PCell A Dev))
    (x : PCell A Dev) : ExtP E cells cells p (p ++ [x]) :=
  fun _ cell hc => ⟨cell, Deferred.get_app x hc, fun _ hs => hs⟩

theorem RHits.mono {E : Env A L Dev} {h h' : List (HCell L)} (he : ExtH E h h') {o : Option Nat}
    {s : Option (Src L)} (ho : RHits E h o s) : RHits E h' o s := by
  unfold RHits at *
  split at ho
  · trivial
  · obtain ⟨cell, hc, hr⟩ := ho
    obtain ⟨cell', hc', i⟩ := he _ _ hc
    exact ⟨cell', hc', i _ hr⟩
  · exact ho.elim

theorem RPlane.mono {E : Env A L Dev} {cells cells' : List (Cell A)} {h h' : List (PCell A Dev)}
    (he : ExtP E cells cells' h h') {o : Option Nat}
    {s : Option (Src (Src A × A × A × A))} (ho : RPlane E cells h o s) : RPlane E cells' h' o s := by
  unfold RPlane at *
  split at ho
  · trivial
  · obtain ⟨cell, hc, hr⟩ := ho
    obtain ⟨cell', hc', i⟩ := he _ _ hc
    exact ⟨cell', hc', i _ hr⟩
  · exact ho.elim

theorem RChan.mono {E : Env A L Dev} {cells cells' : List (Cell A)} {h h' : List (HCell L)}
    {p p' : List (PCell A Dev)} (ha : Ext E cells cells') (hh : ExtH E h h')
    (hp : ExtP E cells cells' p p') {c : Chan N Dev} {v : VChan A L N Dev}
    (hc : RChan E cells h p c v) : RChan E cells' h' p' c v :=
  ⟨hc.data.mono ha, hc.mask.mono ha, hc.noise, hc.plane.mono hp, hc.hits.mono hh, hc.device⟩

theorem RPl.mono {E : Env A L Dev} {cells cells' : List (Cell A)} (ha : Ext E cells cells')
    {p : PObj A Dev} {v : VPlane A Dev} (hp : RPl E cells p v) : RPl E cells' p v :=
  ⟨hp.1.mono ha, hp.2⟩

theorem R.mono {E : Env A L Dev} {s : State A L N Dev} {v : VState A L N Dev} (h : R E s v)
    {cells' : List (Cell A)} {hcells' : List (HCell L)} {pcells' : List (PCell A Dev)}
    (ha : Ext E s.cells cells') (hh : ExtH E s.hcells hcells')
    (hp : ExtP E s.cells cells' s.pcells pcells') :
    Rel (RChan E cells' hcells' pcells') s.chans v.chans ∧ Rel (RPl E cells') s.planes v.planes :=
  ⟨h.chans.mono fun _ _ h => h.mono ha hh hp, h.planes.mono fun _ _ h => h.mono ha⟩

theorem IsMoved.move {E : Env A L Dev} (hM : MoveLast E) {a x : A} (h : IsMoved E a x) (d : Dev) :
    E.move d a = E.move d x := by
  rcases h with rfl | ⟨d', rfl⟩
  · rfl
  · exact hM _ _ _

theorem RFl.move {E : Env A L Dev} (hM : MoveLast E) {a x : A × A × A} (h : RFl E a x) (d : Dev) :
    moveFlags E d a = moveFlags E d x := by
  unfold moveFlags
  rw [h.1.move hM, h.2.1.move hM, h.2.2.move hM]

theorem RFl.moved (E : Env A L Dev) (d : Dev) (x : A × A × A) : RFl E (moveFlags E d x) x :=
  ⟨.inr ⟨d, rfl⟩, .inr ⟨d, rfl⟩, .inr ⟨d, rfl⟩⟩

theorem RFl.refl (E : Env A L Dev) (x : A × A × A) : RFl E x x := ⟨.inl rfl, .inl rfl, .inl rfl⟩

/-- A cell replaced by one that stands for the same. -/
theorem Ext.set {E : Env A L Dev} {cells : List (Cell A)} {c : Nat} {cell cell' : Cell A}
    (hc : cells[c]? = some cell) (h : ∀ s, RepA E cell s → RepA E cell' s) :
    Ext E cells (cells.set c cell') := by
  intro i x hx
  by_cases hi : c = i
  · subst hi
    have : c < cells.length := (List.getElem?_eq_some_iff.mp hc).1
    rw [hc] at hx
    cases hx
    exact ⟨cell', by simp [this], h⟩
  · exact ⟨x, by rw [List.getElem?_set_ne hi]; exact hx, fun _ h => h⟩

theorem toDev_none {E : Env A L Dev} {cells : List (Cell A)} {o : DObj Dev} (d : Dev)
    (h : RObj E cells o none) : toDev E cells o d = none := by
  unfold RObj at h
  unfold toDev
  split at h <;> simp_all

theorem toDev_some {E : Env A L Dev} (hM : MoveLast E) {cells : List (Cell A)} {o : DObj Dev}
    (d : Dev) {x : Src A} (h : RObj E cells o (some x)) :
    ∃ cells' o', toDev E cells o d = some (cells', o') ∧ Ext E cells cells' ∧
      RObj E cells' o' (some x) ∧ o'.device = some d := by
  unfold RObj at h
  unfold toDev
  cases hc : o.cell with
  | none => rw [hc] at h; exact h.elim
  | some c =>
    rw [hc] at h
    obtain ⟨cell, hcell, hr⟩ := h
    simp only [hcell]
    cases cell with
    | fn f => exact ⟨_, _, rfl, .refl _ _, by unfold RObj; simp only [hc]; exact ⟨_, hcell, hr⟩, rfl⟩
    | arr a =>
      refine ⟨_, _, rfl, .append _ _ _, ?_, rfl⟩
      obtain ⟨y, hy, hm⟩ := hr
      refine ⟨.arr (E.move d a), by simp, y, hy, .inr ⟨d, hm.move hM d⟩⟩

theorem readObj_spec {E : Env A L Dev} (hS : Steady E) (hM : MoveLast E) {cells : List (Cell A)}
    (calls : Nat → Nat) {o : DObj Dev} {d : Dev} {x : Src A} (h : RObj E cells o (some x))
    (hd : o.device = some d) :
    Ext E cells (readObj E cells calls o).1 ∧
      (readObj E cells calls o).2.2 = (match x.eval (E.arr · 0) with
        | .ok a => .ok (E.move d a) | .throws e => .throws e | .ub => .ub) := by
  unfold RObj at h
  unfold readObj
  cases hc : o.cell with
  | none => rw [hc] at h; exact h.elim
  | some c =>
    rw [hc] at h
    obtain ⟨cell, hcell, hr⟩ := h
    simp only [hcell, hd]
    cases cell with
    | fn f =>
      cases hr
      simp only [Src.eval, hS.arr f (calls f)]
      cases hf : E.arr f 0 with
      | error e => exact ⟨.refl _ _, rfl⟩
      | ok a =>
        refine ⟨?_, rfl⟩
        simp only [ofExcept]
        split
        · refine .set hcell fun s hs => ?_
          cases hs
          exact ⟨a, by simp [Src.eval, hf, ofExcept], .inr ⟨d, rfl⟩⟩
        · exact .refl _ _
    | arr a =>
      obtain ⟨y, hy, hm⟩ := hr
      simp only [hy, hm.move hM d, and_true]
      split
      · refine .set hcell fun s hs => ?_
        obtain ⟨z, hz, hn⟩ := hs
        refine ⟨z, hz, .inr ⟨d, ?_⟩⟩
        rw [← hm.move hM d, hn.move hM d]
      · exact .refl _ _

theorem RChan.get {E : Env A L Dev} {cells : List (Cell A)} {h : List (HCell L)}
    {p : List (PCell A Dev)} {c : Chan N Dev} {v : VChan A L N Dev} (hc : RChan E cells h p c v)
    (x : Fld) : RObj E cells (c.get x) (v.get x) := by
  cases x
  · exact hc.data
  · exact hc.mask

theorem RChan.put {E : Env A L Dev} {cells : List (Cell A)} {h : List (HCell L)}
    {p : List (PCell A Dev)} {c : Chan N Dev} {v : VChan A L N Dev} (hc : RChan E cells h p c v)
    (x : Fld) {o : DObj Dev} {s : Option (Src A)} (ho : RObj E cells o s) :
    RChan E cells h p (c.put x o) (v.put x s) := by
  cases x
  · exact { hc with data := ho }
  · exact { hc with mask := ho }

theorem put_get (v : VChan A L N Dev) (x : Fld) : v.put x (v.get x) = v := by
  cases x <;> rfl

theorem RObj.new {E : Env A L Dev} (cells : List (Cell A)) {cell : Cell A} {x : Src A}
    (h : RepA E cell x) (d : Option Dev) (p : Policy) :
    RObj E (cells ++ [cell]) ⟨some cells.length, d, p⟩ (some x) := ⟨cell, by simp, h⟩

theorem RepA.val (E : Env A L Dev) (a : A) : RepA E (.arr a) (.val a) := ⟨a, rfl, .inl rfl⟩

/-- Reading an array of a plane or channel: the cells, and what is returned. -/
theorem read_spec {E : Env A L Dev} (hS : Steady E) (hM : MoveLast E) {cells : List (Cell A)}
    (calls : Nat → Nat) {o : DObj Dev} (d : Dev) {x : Src A} (h : RObj E cells o (some x)) :
    ∃ cells' o', toDev E cells o d = some (cells', o') ∧
      Ext E cells (readObj E cells' calls o').1 ∧
      RObj E (readObj E cells' calls o').1 o' (some x) ∧
      (readObj E cells' calls o').2.2 = (match x.eval (E.arr · 0) with
        | .ok a => .ok (E.move d a) | .throws e => .throws e | .ub => .ub) := by
  obtain ⟨cells', o', ht, he, hr, hd⟩ := toDev_some hM d h
  obtain ⟨he', hv⟩ := readObj_spec hS hM calls hr hd
  exact ⟨cells', o', ht, he.trans he', hr.mono he', hv⟩

theorem eval_not_ub {α : Type} (g : Nat → Except Err α) (x : Src α) : x.eval g ≠ .ub := by
  cases x with
  | val a => simp [Src.eval]
  | fn f => simp only [Src.eval]; cases g f <;> simp [ofExcept]

/-- One call on the objects gives what the call on the values gives, and afterwards the objects
still stand for the values. -/
theorem step_sim {E : Env A L Dev} (hS : Steady E) (hM : MoveLast E) {s : State A L N Dev}
    {v : VState A L N Dev} (h : R E s v) (op : Op A L N Dev) :
    (step E s op).2 = (vstep E v op).2 ∧
      ((step E s op).2 ≠ .ub → R E (step E s op).1 (vstep E v op).1) := by
  have hcells : ∀ i, s.chans[i]? = none → v.chans[i]? = none := fun i => h.chans.none
  have hpl : ∀ i, s.planes[i]? = none → v.planes[i]? = none := fun i => h.planes.none
  cases op with
  | new =>
    refine ⟨by trivial, fun _ => ⟨h.chans.append ?_, h.planes⟩⟩
    exact ⟨trivial, trivial, rfl, trivial, trivial, rfl⟩
  | copy i =>
    simp only [step, vstep]
    cases hi : s.chans[i]? with
    | none => simp [hcells i hi]
    | some c =>
      obtain ⟨w, hw, hr⟩ := h.chans.get hi
      simp only [hw]
      exact ⟨by trivial, fun _ => ⟨h.chans.append hr, h.planes⟩⟩
  | setArr i x a =>
    simp only [step, vstep]
    cases hi : s.chans[i]? with
    | none => simp [hcells i hi]
    | some c =>
      obtain ⟨w, hw, hr⟩ := h.chans.get hi
      simp only [hw]
      have he := Ext.append E s.cells (.arr a)
      obtain ⟨h1, h2⟩ := h.mono he (.refl _ _) (.of he _)
      exact ⟨by trivial, fun _ => ⟨h1.set i ((hr.mono he (.refl _ _) (.of he _)).put x
        (.new _ (.val E a) _ _)), h2⟩⟩
  | setFn i x p f =>
    simp only [step, vstep]
    cases hi : s.chans[i]? with
    | none => simp [hcells i hi]
    | some c =>
      obtain ⟨w, hw, hr⟩ := h.chans.get hi
      simp only [hw]
      have he := fun y => Ext.append E s.cells y
      cases p with
      | eager =>
        simp only [hS.arr f (s.acalls f)]
        cases hf : E.arr f 0 with
        | error e => exact ⟨by trivial, fun _ => ⟨h.chans, h.planes⟩⟩
        | ok a =>
          obtain ⟨h1, h2⟩ := h.mono (he (.arr a)) (.refl _ _) (.of (he _) _)
          exact ⟨by trivial, fun _ => ⟨h1.set i ((hr.mono (he _) (.refl _ _) (.of (he _) _)).put x
            (.new _ (.val E a) _ _)), h2⟩⟩
      | memoize =>
        obtain ⟨h1, h2⟩ := h.mono (he (.fn f)) (.refl _ _) (.of (he _) _)
        exact ⟨by trivial, fun _ => ⟨h1.set i ((hr.mono (he _) (.refl _ _) (.of (he _) _)).put x
          (.new _ (show RepA E (.fn f) (.fn f) from rfl) _ _)), h2⟩⟩
      | lazy =>
        obtain ⟨h1, h2⟩ := h.mono (he (.fn f)) (.refl _ _) (.of (he _) _)
        exact ⟨by trivial, fun _ => ⟨h1.set i ((hr.mono (he _) (.refl _ _) (.of (he _) _)).put x
          (.new _ (show RepA E (.fn f) (.fn f) from rfl) _ _)), h2⟩⟩
  | setShared i x j y =>
    simp only [step, vstep]
    cases hi : s.chans[i]? with
    | none => simp [hcells i hi]
    | some c =>
      obtain ⟨w, hw, hr⟩ := h.chans.get hi
      cases hj : s.chans[j]? with
      | none => simp [hcells j hj]
      | some c' =>
        obtain ⟨w', hw', hr'⟩ := h.chans.get hj
        simp only [hw, hw']
        exact ⟨by trivial, fun _ => ⟨h.chans.set i (hr.put x (hr'.get y)), h.planes⟩⟩
  | read i x =>
    simp only [step, vstep]
    cases hi : s.chans[i]? with
    | none => simp [hcells i hi]
    | some c =>
      obtain ⟨w, hw, hr⟩ := h.chans.get hi
      simp only [hw]
      have hg := hr.get x
      rw [hr.device]
      cases hwx : w.get x with
      | none =>
        rw [hwx] at hg
        simp only [toDev_none w.device hg, readOn]
        exact ⟨by trivial, fun h => (h rfl).elim⟩
      | some y =>
        rw [hwx] at hg
        obtain ⟨cells', o', ht, he, ho, hv⟩ := read_spec hS hM s.acalls w.device hg
        simp only [ht, hv, readOn]
        refine ⟨?_, fun _ => ?_⟩
        · cases y.eval (E.arr · 0) <;> rfl
        · obtain ⟨h1, h2⟩ := h.mono he (.refl _ _) (.of he _)
          refine ⟨h1.setLeft hw ?_, h2⟩
          have := (hr.mono he (.refl _ _) (.of he _)).put x ho
          rwa [← hwx, put_get] at this
  | setNoise i n =>
    simp only [step, vstep]
    cases hi : s.chans[i]? with
    | none => simp [hcells i hi]
    | some c =>
      obtain ⟨w, hw, hr⟩ := h.chans.get hi
      simp only [hw]
      exact ⟨by trivial, fun _ => ⟨h.chans.set i { hr with noise := rfl }, h.planes⟩⟩
  | noise i =>
    simp only [step, vstep]
    cases hi : s.chans[i]? with
    | none => simp [hcells i hi]
    | some c =>
      obtain ⟨w, hw, hr⟩ := h.chans.get hi
      simp only [hw, hr.noise]
      exact ⟨by trivial, fun _ => h⟩
  | hasHits i =>
    simp only [step, vstep]
    cases hi : s.chans[i]? with
    | none => simp [hcells i hi]
    | some c =>
      obtain ⟨w, hw, hr⟩ := h.chans.get hi
      simp only [hw]
      refine ⟨?_, fun _ => h⟩
      have := hr.hits
      unfold RHits at this
      split at this <;> simp_all
  | hits i =>
    simp only [step, vstep]
    cases hi : s.chans[i]? with
    | none => simp [hcells i hi]
    | some c =>
      obtain ⟨w, hw, hr⟩ := h.chans.get hi
      simp only [hw]
      have hh := hr.hits
      unfold RHits at hh
      cases hc : c.hits with
      | none =>
        cases hx : w.hits with
        | none => exact ⟨by trivial, fun _ => h⟩
        | some x => simp [hc, hx] at hh
      | some k =>
        cases hx : w.hits with
        | none => simp [hc, hx] at hh
        | some x =>
          simp only [hc, hx] at hh
          obtain ⟨cell, hk, hrep⟩ := hh
          simp only [hk]
          cases cell with
          | val l =>
            have : x.eval (E.hits · 0) = .ok l := hrep
            simp only [this]
            exact ⟨by trivial, fun _ => h⟩
          | fn f =>
            have : x = .fn f := hrep
            subst this
            simp only [hS.hits f (s.hcalls f), Src.eval]
            cases hf : E.hits f 0 with
            | error e => exact ⟨by trivial, fun _ => ⟨h.chans, h.planes⟩⟩
            | ok l =>
              refine ⟨by trivial, fun _ => ?_⟩
              have he : ExtH E s.hcells (s.hcells.set k (.val l)) := by
                intro j y hy
                by_cases hjk : k = j
                · subst hjk
                  have : k < s.hcells.length := (List.getElem?_eq_some_iff.mp hk).1
                  rw [hk] at hy
                  cases hy
                  refine ⟨.val l, by simp [this], fun z hz => ?_⟩
                  cases hz
                  simp [RepH, Src.eval, hf, ofExcept]
                · exact ⟨y, by rw [List.getElem?_set_ne hjk]; exact hy, fun _ h => h⟩
              obtain ⟨h1, h2⟩ := h.mono (.refl _ _) he (.of (.refl _ _) _)
              exact ⟨h1, h2⟩
  | setHits i l =>
    simp only [step, vstep]
    cases hi : s.chans[i]? with
    | none => simp [hcells i hi]
    | some c =>
      obtain ⟨w, hw, hr⟩ := h.chans.get hi
      simp only [hw]
      have he := ExtH.append E s.hcells (.val l)
      obtain ⟨h1, h2⟩ := h.mono (.refl _ _) he (.of (.refl _ _) _)
      refine ⟨by trivial, fun _ => ⟨h1.set i { hr.mono (.refl _ _) he (.of (.refl _ _) _) with hits := ?_ }, h2⟩⟩
      exact ⟨.val l, by simp, rfl⟩
  | setHitsFn i f =>
    simp only [step, vstep]
    cases hi : s.chans[i]? with
    | none => simp [hcells i hi]
    | some c =>
      obtain ⟨w, hw, hr⟩ := h.chans.get hi
      simp only [hw]
      have he := ExtH.append E s.hcells (.fn f)
      obtain ⟨h1, h2⟩ := h.mono (.refl _ _) he (.of (.refl _ _) _)
      refine ⟨by trivial, fun _ => ⟨h1.set i { hr.mono (.refl _ _) he (.of (.refl _ _) _) with hits := ?_ }, h2⟩⟩
      exact ⟨.fn f, by simp, rfl⟩
  | device i =>
    simp only [step, vstep]
    cases hi : s.chans[i]? with
    | none => simp [hcells i hi]
    | some c =>
      obtain ⟨w, hw, hr⟩ := h.chans.get hi
      simp only [hw, hr.device]
      exact ⟨by trivial, fun _ => h⟩
  | setDevice i d =>
    simp only [step, vstep]
    cases hi : s.chans[i]? with
    | none => simp [hcells i hi]
    | some c =>
      obtain ⟨w, hw, hr⟩ := h.chans.get hi
      simp only [hw]
      split
      · exact ⟨by trivial, fun _ => ⟨h.chans.set i { hr with device := rfl }, h.planes⟩⟩
      · exact ⟨by trivial, fun _ => h⟩
  | push i =>
    simp only [step, vstep]
    cases hi : s.chans[i]? with
    | none => simp [hcells i hi]
    | some c =>
      obtain ⟨w, hw, hr⟩ := h.chans.get hi
      obtain ⟨cd, cm, cn, cpl, ch, cdev⟩ := c
      have hdev := hr.device
      dsimp only at hdev
      subst hdev
      simp only [hw]
      have hm := hr.mask
      have hd := hr.data
      cases hwm : w.mask with
      | none =>
        rw [hwm] at hm
        simp [toDev_none w.device hm]
      | some m =>
        rw [hwm] at hm
        obtain ⟨c₁, m', ht₁, he₁, hm', -⟩ := toDev_some hM w.device hm
        simp only [ht₁]
        cases hwd : w.data with
        | none =>
          rw [hwd] at hd
          simp [toDev_none w.device (hd.mono he₁)]
        | some x =>
          rw [hwd] at hd
          obtain ⟨c₂, x', ht₂, he₂, hx', -⟩ := toDev_some hM w.device (hd.mono he₁)
          simp only [ht₂]
          have he := he₁.trans he₂
          have hchan : ∀ (cells : List (Cell A)) (p : List (PCell A Dev)), Ext E c₂ cells →
              ExtP E s.cells cells s.pcells p →
              RChan E cells s.hcells p ⟨x', m', cn, cpl, ch, w.device⟩ w := by
            intro cells p hec hep
            have h0 := hr.mono (he.trans hec) (.refl _ _) hep
            exact { h0 with
              mask := by rw [hwm]; exact (hm'.mono he₂).mono hec
              data := by rw [hwd]; exact hx'.mono hec }
          have hp := hr.plane
          unfold RPlane at hp
          cases cpl with
          | none =>
            simp only [Option.isSome_some, and_self, if_true, true_and]
            intro _
            obtain ⟨h1, h2⟩ := h.mono he (.refl _ _) (.of he _)
            exact ⟨h1.setLeft hw (hchan _ _ (.refl _ _) (.of he _)), h2⟩
          | some k =>
            cases hwp : w.plane with
            | none => simp [hwp] at hp
            | some y =>
              simp only [hwp] at hp
              obtain ⟨cell, hk, hrep⟩ := hp
              simp only [hk]
              cases cell with
              | fn f =>
                simp only [Option.isSome_some, and_self, if_true, true_and]
                intro _
                obtain ⟨h1, h2⟩ := h.mono he (.refl _ _) (.of he _)
                exact ⟨h1.setLeft hw (hchan _ _ (.refl _ _) (.of he _)), h2⟩
              | val p =>
                cases y with
                | fn f => exact hrep.elim
                | val y =>
                  obtain ⟨hpd, hpf⟩ := hrep
                  obtain ⟨c₃, o', ht₃, he₃, ho', -⟩ := toDev_some hM w.device (hpd.mono he)
                  simp only [pushPlane, ht₃, Option.isSome_some, and_self, if_true, true_and]
                  intro _
                  have he' := he.trans he₃
                  have hep : ExtP E s.cells c₃ s.pcells (s.pcells.set k
                      (.val ⟨o', moveFlags E w.device p.flags, w.device⟩)) := by
                    intro j z hz
                    by_cases hjk : k = j
                    · subst hjk
                      have hlt : k < s.pcells.length := (List.getElem?_eq_some_iff.mp hk).1
                      rw [hk] at hz
                      cases hz
                      refine ⟨_, List.getElem?_set_self hlt, fun u hu => ?_⟩
                      cases u with
                      | fn f => exact hu.elim
                      | val u =>
                        obtain ⟨hud, huf⟩ := hu
                        obtain ⟨c₄, o'', ht₄, -, ho'', -⟩ := toDev_some hM w.device (hud.mono he)
                        rw [ht₃] at ht₄
                        cases ht₄
                        exact ⟨ho'', by rw [huf.move hM]; exact .moved _ _ _⟩
                    · exact ⟨z, by rw [List.getElem?_set_ne hjk]; exact hz, fun _ hu => hu.mono he'⟩
                  obtain ⟨h1, h2⟩ := h.mono he' (.refl _ _) hep
                  exact ⟨h1.setLeft hw (hchan _ _ he₃ hep), h2⟩
  | newPlane a fl =>
    have he := Ext.append E s.cells (.arr a)
    obtain ⟨h1, h2⟩ := h.mono he (.refl _ _) (.of he _)
    exact ⟨by trivial, fun _ => ⟨h1, h2.append ⟨.new _ (.val E a) _ _, .refl _ _, rfl⟩⟩⟩
  | copyPlane p =>
    simp only [step, vstep]
    cases hi : s.planes[p]? with
    | none => simp [hpl p hi]
    | some q =>
      obtain ⟨w, hw, hr⟩ := h.planes.get hi
      simp only [hw]
      exact ⟨by trivial, fun _ => ⟨h.chans, h.planes.append hr⟩⟩
  | setPlane i p =>
    simp only [step, vstep]
    cases hi : s.chans[i]? with
    | none => simp [hcells i hi]
    | some c =>
      obtain ⟨w, hw, hr⟩ := h.chans.get hi
      cases hj : s.planes[p]? with
      | none => simp [hpl p hj]
      | some q =>
        obtain ⟨u, hu, hq⟩ := h.planes.get hj
        simp only [hw, hu]
        have he := ExtP.append E s.cells s.pcells (.val q)
        obtain ⟨h1, h2⟩ := h.mono (.refl _ _) (.refl _ _) he
        refine ⟨by trivial, fun _ => ⟨h1.set i { hr.mono (.refl _ _) (.refl _ _) he with plane := ?_ }, h2⟩⟩
        exact ⟨.val q, by simp, hq.1, hq.2.1⟩
  | setPlaneFn i f =>
    simp only [step, vstep]
    cases hi : s.chans[i]? with
    | none => simp [hcells i hi]
    | some c =>
      obtain ⟨w, hw, hr⟩ := h.chans.get hi
      simp only [hw]
      have he := ExtP.append E s.cells s.pcells (.fn f)
      obtain ⟨h1, h2⟩ := h.mono (.refl _ _) (.refl _ _) he
      refine ⟨by trivial, fun _ => ⟨h1.set i { hr.mono (.refl _ _) (.refl _ _) he with plane := ?_ }, h2⟩⟩
      exact ⟨.fn f, by simp, rfl⟩
  | plane i =>
    simp only [step, vstep]
    cases hi : s.chans[i]? with
    | none => simp [hcells i hi]
    | some c =>
      obtain ⟨w, hw, hr⟩ := h.chans.get hi
      simp only [hw, hr.device]
      have hp := hr.plane
      unfold RPlane at hp
      cases hcp : c.plane with
      | none =>
        cases hwp : w.plane with
        | none => exact ⟨by trivial, fun _ => h⟩
        | some y => simp [hcp, hwp] at hp
      | some k =>
        cases hwp : w.plane with
        | none => simp [hcp, hwp] at hp
        | some y =>
          simp only [hcp, hwp] at hp
          obtain ⟨cell, hk, hrep⟩ := hp
          simp only [hk]
          cases cell with
          | fn f =>
            have : y = .fn f := hrep
            subst this
            simp only [hS.plane f (s.pcalls f)]
            cases hf : E.plane f 0 with
            | error e => exact ⟨by trivial, fun _ => ⟨h.chans, h.planes⟩⟩
            | ok r =>
              obtain ⟨a, fl⟩ := r
              have he := Ext.append E s.cells (.arr a)
              obtain ⟨h1, h2⟩ := h.mono he (.refl _ _) (.of he _)
              exact ⟨by trivial, fun _ => ⟨h1, h2.append ⟨.new _ (.val E a) _ _, .refl _ _, rfl⟩⟩⟩
          | val p =>
            cases y with
            | fn f => exact hrep.elim
            | val y =>
              obtain ⟨y, fl⟩ := y
              obtain ⟨hpd, hpf⟩ := hrep
              refine ⟨by trivial, fun _ => ?_⟩
              have hep : ExtP E s.cells s.cells s.pcells
                  (s.pcells.set k (.val { p with device := w.device })) := by
                intro j z hz
                by_cases hjk : k = j
                · subst hjk
                  have hlt : k < s.pcells.length := (List.getElem?_eq_some_iff.mp hk).1
                  rw [hk] at hz
                  cases hz
                  refine ⟨_, List.getElem?_set_self hlt, fun u hu => ?_⟩
                  cases u with
                  | fn f => exact hu.elim
                  | val u => exact hu
                · exact ⟨z, by rw [List.getElem?_set_ne hjk]; exact hz, fun _ hu => hu⟩
              obtain ⟨h1, h2⟩ := h.mono (.refl _ _) (.refl _ _) hep
              exact ⟨h1, h2.append ⟨hpd, hpf, rfl⟩⟩
  | planeArr p =>
    simp only [step, vstep]
    cases hi : s.planes[p]? with
    | none => simp [hpl p hi]
    | some q =>
      obtain ⟨w, hw, hr⟩ := h.planes.get hi
      obtain ⟨hd, hf, hv⟩ := hr
      simp only [hw, hv]
      obtain ⟨cells', o', ht, he, ho, hv'⟩ := read_spec hS hM s.acalls w.device hd
      simp only [ht, hv', readOn]
      refine ⟨?_, fun _ => ?_⟩
      · cases w.drifts.eval (E.arr · 0) <;> rfl
      · obtain ⟨h1, h2⟩ := h.mono he (.refl _ _) (.of he _)
        exact ⟨h1, h2.setLeft hw ⟨ho, hf, rfl⟩⟩
  | planeRfi p =>
    simp only [step, vstep]
    cases hi : s.planes[p]? with
    | none => simp [hpl p hi]
    | some q =>
      obtain ⟨w, hw, hd, hf, hv⟩ := h.planes.get hi
      simp only [hw, hv, hf.move hM, true_and]
      exact fun _ => ⟨h.chans, h.planes.setLeft hw ⟨hd, .moved _ _ _, rfl⟩⟩
  | planeSetDevice p d =>
    simp only [step, vstep]
    cases hi : s.planes[p]? with
    | none => simp [hpl p hi]
    | some q =>
      obtain ⟨w, hw, hd, hf, hv⟩ := h.planes.get hi
      simp only [hw]
      exact ⟨by trivial, fun _ => ⟨h.chans, h.planes.set p ⟨hd, hf, rfl⟩⟩⟩
  | planePush p =>
    simp only [step, vstep]
    cases hi : s.planes[p]? with
    | none => simp [hpl p hi]
    | some q =>
      obtain ⟨w, hw, hd, hf, hv⟩ := h.planes.get hi
      obtain ⟨cells', o', ht, he, ho, -⟩ := toDev_some hM q.device hd
      simp only [hw, pushPlane, ht, true_and]
      intro _
      obtain ⟨h1, h2⟩ := h.mono he (.refl _ _) (.of he _)
      exact ⟨h1, h2.setLeft hw ⟨ho, by rw [hf.move hM]; exact .moved _ _ _, hv⟩⟩

/-- Values, before anything is created. -/
def VState.empty : VState A L N Dev := ⟨[], []⟩

theorem run_sim {E : Env A L Dev} (hS : Steady E) (hM : MoveLast E) (ops : List (Op A L N Dev)) :
    ∀ {s : State A L N Dev} {v : VState A L N Dev}, R E s v → run E s ops = vrun E v ops := by
  induction ops with
  | nil => intros; rfl
  | cons op ops ih =>
    intro s v h
    obtain ⟨h1, h2⟩ := step_sim hS hM h op
    unfold run vrun
    generalize step E s op = a at *
    generalize vstep E v op = b at *
    obtain ⟨s', r⟩ := a
    obtain ⟨v', r'⟩ := b
    dsimp only at *
    subst h1
    cases r with
    | ub => rfl
    | ok x => simp [ih (h2 (by simp))]
    | throws e => simp [ih (h2 (by simp))]

/-- **C108**, for functions that give the same at every call: every program that creates, copies,
sets, reads and moves channels and drift planes sees exactly what it would see if channels and
planes were plain values, nothing shared between them. Not covered: functions whose result changes
between calls, see `C108_unsteady_function`. -/
theorem C108_channels_are_values_partial {E : Env A L Dev} (hS : Steady E) (hM : MoveLast E)
    (ops : List (Op A L N Dev)) : run E .empty ops = vrun E .empty ops :=
  run_sim hS hM ops ⟨⟨rfl, by simp [State.empty]⟩, ⟨rfl, by simp [State.empty]⟩⟩

/-! ## Histories -/

/-- The state after a program, unless it met undefined behaviour. -/
def exec (E : Env A L Dev) : State A L N Dev → List (Op A L N Dev) → Option (State A L N Dev)
  | s, [] => some s
  | s, op :: ops => match step E s op with
    | (_, .ub) => none
    | (s', _) => exec E s' ops

/-- The call sets something of channel `i`. -/
def Op.sets (i : Nat) : Op A L N Dev → Bool
  | .setArr j _ _ | .setFn j _ _ _ | .setShared j _ _ _ | .setNoise j _ | .setHits j _
  | .setHitsFn j _ | .setDevice j _ | .setPlane j _ | .setPlaneFn j _ => i == j
  | _ => false

/-- The call looks at channel `i`, without making a plane. -/
def Op.looksAt (i : Nat) : Op A L N Dev → Bool
  | .read j _ | .noise j | .hasHits j | .hits j | .device j => i == j
  | _ => false

/-- The same look at another channel. -/
def Op.retarget (j : Nat) : Op A L N Dev → Op A L N Dev
  | .read _ x => .read j x
  | .noise _ => .noise j
  | .hasHits _ => .hasHits j
  | .hits _ => .hits j
  | .device _ => .device j
  | op => op

def vexec (E : Env A L Dev) : VState A L N Dev → List (Op A L N Dev) → Option (VState A L N Dev)
  | s, [] => some s
  | s, op :: ops => match vstep E s op with
    | (_, .ub) => none
    | (s', _) => vexec E s' ops

theorem exec_cons {E : Env A L Dev} {s t : State A L N Dev} {op : Op A L N Dev}
    {ops : List (Op A L N Dev)} (h : exec E s (op :: ops) = some t) :
    (step E s op).2 ≠ .ub ∧ exec E (step E s op).1 ops = some t := by
  unfold exec at h
  generalize step E s op = a at *
  obtain ⟨s', r⟩ := a
  cases r <;> simp_all

theorem exec_sim {E : Env A L Dev} (hS : Steady E) (hM : MoveLast E) (ops : List (Op A L N Dev)) :
    ∀ {s t : State A L N Dev} {v : VState A L N Dev}, R E s v → exec E s ops = some t →
      ∃ w, vexec E v ops = some w ∧ R E t w := by
  induction ops with
  | nil => intro s t v h ht; cases ht; exact ⟨v, rfl, h⟩
  | cons op ops ih =>
    intro s t v h ht
    obtain ⟨h1, h2⟩ := step_sim hS hM h op
    obtain ⟨hn, ht⟩ := exec_cons ht
    obtain ⟨w, hw, hr⟩ := ih (h2 hn) ht
    refine ⟨w, ?_, hr⟩
    unfold vexec
    rw [h1] at hn
    generalize vstep E v op = b at *
    obtain ⟨v', r'⟩ := b
    cases r' <;> simp_all

theorem vstep_other {E : Env A L Dev} {v : VState A L N Dev} {op : Op A L N Dev} {j : Nat}
    (hj : j < v.chans.length) (h : op.sets j = false) :
    (vstep E v op).1.chans[j]? = v.chans[j]? := by
  cases op <;> simp only [vstep, Op.sets] at * <;> (repeat' split) <;>
    first
      | rfl
      | exact List.getElem?_append_left hj
      | exact List.getElem?_set_ne (fun e => by simp [e] at h)

theorem vstep_length {E : Env A L Dev} {v : VState A L N Dev} (op : Op A L N Dev) :
    v.chans.length ≤ (vstep E v op).1.chans.length := by
  cases op <;> simp only [vstep] <;> (repeat' split) <;> simp

theorem vexec_other {E : Env A L Dev} (ops : List (Op A L N Dev)) :
    ∀ {v w : VState A L N Dev} {j : Nat}, j < v.chans.length → (∀ op ∈ ops, op.sets j = false) →
      vexec E v ops = some w → w.chans[j]? = v.chans[j]? := by
  induction ops with
  | nil => intro v w j _ _ h; cases h; rfl
  | cons op ops ih =>
    intro v w j hj hs h
    have h1 := vstep_other (E := E) hj (hs op (by simp))
    have h2 := vstep_length (E := E) (v := v) op
    unfold vexec at h
    generalize vstep E v op = b at *
    obtain ⟨v', r'⟩ := b
    dsimp only at h1 h2 h
    rw [← h1]
    cases r' with
    | ub => simp at h
    | ok x => exact ih (by omega) (fun o ho => hs o (by simp [ho])) h
    | throws e => exact ih (by omega) (fun o ho => hs o (by simp [ho])) h

theorem vstep_look {E : Env A L Dev} {v w : VState A L N Dev} {op : Op A L N Dev} {i j : Nat}
    (h : v.chans[i]? = w.chans[j]?) (hl : op.looksAt i = true) :
    (vstep E v op).2 = (vstep E w (op.retarget j)).2 := by
  cases op <;> simp only [Op.looksAt, beq_iff_eq, Bool.false_eq_true] at hl <;> subst hl <;>
    simp only [vstep, Op.retarget, h] <;> split <;> rfl

theorem retarget_self {op : Op A L N Dev} {i : Nat} (hl : op.looksAt i = true) :
    op.retarget i = op := by
  cases op <;> simp only [Op.looksAt, beq_iff_eq, Bool.false_eq_true] at hl <;> subst hl <;> rfl

/-- **C108**: what a channel shows changes only when that channel is set. Whatever else happens in
between - copies of it that are set, read, pushed to devices, planes that are taken from it and
moved, reads of the channel itself - each look gives what it gave before. -/
theorem C108_only_setting_changes_partial {E : Env A L Dev} (hS : Steady E) (hM : MoveLast E)
    {before between : List (Op A L N Dev)} {s t : State A L N Dev} {j : Nat} {look : Op A L N Dev}
    (hs : exec E .empty before = some s) (hj : j < s.chans.length)
    (hset : ∀ op ∈ between, op.sets j = false) (ht : exec E s between = some t)
    (hl : look.looksAt j = true) : (step E t look).2 = (step E s look).2 := by
  obtain ⟨v, -, hr⟩ := exec_sim hS hM before (v := .empty)
    ⟨⟨rfl, by simp [State.empty]⟩, ⟨rfl, by simp [State.empty]⟩⟩ hs
  obtain ⟨w, hw, hr'⟩ := exec_sim hS hM between hr ht
  rw [(step_sim hS hM hr look).1, (step_sim hS hM hr' look).1]
  rw [vstep_look (vexec_other between (hr.chans.1 ▸ hj) hset hw) hl, retarget_self hl]

/-- **C108**: a copy is independent of the original. It shows what the original showed when the copy
was made until the copy itself is set, whatever is done to the original. -/
theorem C108_copy_independent_partial {E : Env A L Dev} (hS : Steady E) (hM : MoveLast E)
    {before between : List (Op A L N Dev)} {s t : State A L N Dev} {i : Nat} {look : Op A L N Dev}
    (hs : exec E .empty before = some s) (hl : look.looksAt i = true)
    (hset : ∀ op ∈ between, op.sets s.chans.length = false)
    (ht : exec E s (.copy i :: between) = some t) :
    (step E t (look.retarget s.chans.length)).2 = (step E s look).2 := by
  obtain ⟨v, -, hr⟩ := exec_sim hS hM before (v := .empty)
    ⟨⟨rfl, by simp [State.empty]⟩, ⟨rfl, by simp [State.empty]⟩⟩ hs
  obtain ⟨w, hw, hr'⟩ := exec_sim hS hM _ hr ht
  rw [(step_sim hS hM hr look).1, (step_sim hS hM hr' _).1]
  simp only [vexec, vstep] at hw
  cases hi : v.chans[i]? with
  | none => simp [hi] at hw
  | some c =>
    simp only [hi] at hw
    refine (vstep_look ?_ hl).symm
    rw [hi, vexec_other between (v := { v with chans := v.chans ++ [c] }) (j := s.chans.length)
      (by simp [hr.chans.1]) hset hw]
    simp [hr.chans.1]

/-! ## Without any assumption on the functions -/

theorem readObj_moved {E : Env A L Dev} {cells : List (Cell A)} {calls : Nat → Nat} {o : DObj Dev}
    {d : Dev} {a : A} (hd : o.device = some d) (h : (readObj E cells calls o).2.2 = .ok a) :
    ∃ b, a = E.move d b := by
  unfold readObj at h
  cases hc : o.cell with
  | none => simp [hc] at h
  | some c =>
    cases hcell : cells[c]? with
    | none => simp [hc, hcell] at h
    | some cell =>
      simp only [hc, hcell, hd] at h
      split at h
      · next v _ => simp at h; exact ⟨v, h.symm⟩
      · simp at h
      · simp at h

theorem toDev_device {E : Env A L Dev} {cells cells' : List (Cell A)} {o o' : DObj Dev} {d : Dev}
    (h : toDev E cells o d = some (cells', o')) : o'.device = some d := by
  unfold toDev at h
  repeat' split at h
  all_goals simp at h
  all_goals (obtain ⟨-, rfl⟩ := h; rfl)

/-- **C108**: `data()` and `mask()` return an array that was moved to the device of the channel, in
every state and for every function. -/
theorem C108_on_channel_device {E : Env A L Dev} {s : State A L N Dev} {i : Nat} {x : Fld} {a : A}
    (h : (step E s (.read i x)).2 = .ok (.arr a)) :
    ∃ d, (step E s (.device i)).2 = .ok (.dev d) ∧ ∃ b, a = E.move d b := by
  simp only [step] at *
  cases hi : s.chans[i]? with
  | none => simp [hi] at h
  | some c =>
    refine ⟨c.device, by simp, ?_⟩
    simp only [hi] at h
    cases ht : toDev E s.cells (c.get x) c.device with
    | none => simp [ht] at h
    | some r =>
      obtain ⟨cells, o⟩ := r
      simp only [ht] at h
      have hd := toDev_device ht
      split at h
      · next b hb =>
        simp only [Outcome.ok.injEq, Val.arr.injEq] at h
        exact h ▸ readObj_moved hd hb
      · simp at h
      · simp at h

/-- The `k`-th call of `f` returns a list. -/
def gives (E : Env A L Dev) (f k : Nat) : Bool :=
  match E.hits f k with
  | .ok _ => true
  | .error _ => false

/-- Calls of `f` among the first `n` that returned a list. -/
def returned (E : Env A L Dev) (f n : Nat) : Nat := (List.range n).countP (gives E f)

/-- The call hands `f` to `set_hits`. -/
def Op.hands (f : Nat) : Op A L N Dev → Bool
  | .setHitsFn _ g => g == f
  | _ => false

/-- How often `f` was handed to `set_hits`. -/
def handed (f : Nat) (ops : List (Op A L N Dev)) : Nat := ops.countP (Op.hands f)

def HCell.isFn (f : Nat) : HCell L → Bool
  | .fn g => g == f
  | .val _ => false

/-- Hits cells that still hold `f`. -/
def waiting (f : Nat) (h : List (HCell L)) : Nat := h.countP (HCell.isFn f)

theorem returned_bump (E : Env A L Dev) (f g : Nat) (c : Nat → Nat) :
    returned E f (bump c g f) = returned E f (c f) + (if f = g ∧ gives E f (c f) then 1 else 0) := by
  unfold bump
  by_cases h : f = g
  · simp [h, returned, List.range_succ, List.countP_append, List.countP_cons]
  · simp [h]

theorem waiting_append (f : Nat) (h : List (HCell L)) (c : HCell L) :
    waiting f (h ++ [c]) = waiting f h + (if c.isFn f then 1 else 0) := by
  simp [waiting, List.countP_append, List.countP_cons]

theorem waiting_set {f g k : Nat} {h : List (HCell L)} {l : L} (hk : h[k]? = some (.fn g)) :
    waiting f h = waiting f (h.set k (.val l)) + (if g = f then 1 else 0) := by
  induction h generalizing k with
  | nil => simp at hk
  | cons c h ih =>
    cases k with
    | zero =>
      simp at hk
      subst hk
      simp [waiting, List.countP_cons, HCell.isFn]
    | succ k =>
      simp at hk
      have := ih hk
      simp only [waiting, List.set_cons_succ, List.countP_cons] at *
      omega

/-- Calls that find hits, per function: those that returned, and the cells still waiting, change
together with the hand-overs. -/
theorem hits_step (E : Env A L Dev) (s : State A L N Dev) (op : Op A L N Dev) (f : Nat) :
    returned E f ((step E s op).1.hcalls f) + waiting f (step E s op).1.hcells ≤
      returned E f (s.hcalls f) + waiting f s.hcells + handed f [op] := by
  cases op
  case hits i =>
    simp only [step]
    cases hi : s.chans[i]? with
    | none => simp
    | some c =>
      cases hc : c.hits with
      | none => simp [hc]
      | some k =>
        simp only [hc]
        cases hk : s.hcells[k]? with
        | none => simp
        | some cell =>
          cases cell with
          | val l => simp
          | fn g =>
            dsimp only
            cases hg : E.hits g (s.hcalls g) with
            | ok l =>
              dsimp only
              rw [returned_bump, waiting_set (f := f) (l := l) hk]
              by_cases hfg : f = g
              · subst hfg; simp [gives, hg]; omega
              · simp [hfg, Ne.symm hfg]
            | error e =>
              dsimp only
              rw [returned_bump]
              by_cases hfg : f = g
              · subst hfg; simp [gives, hg]
              · simp [hfg]
  case setHits i l =>
    simp only [step]
    cases hi : s.chans[i]? with
    | none => simp
    | some c => dsimp only; rw [waiting_append]; simp [HCell.isFn]
  case setHitsFn i g =>
    simp only [step]
    cases hi : s.chans[i]? with
    | none => simp
    | some c =>
      dsimp only; rw [waiting_append]
      by_cases hg : g = f <;> simp [HCell.isFn, handed, Op.hands, hg]; omega
  all_goals (simp only [step]; (repeat' split) <;> simp)

/-- **C109**: a function handed to `set_hits` returns a list at most once per hand-over, however
many channels are copied from the one it was handed to and however often any of them is asked for
its hits. -/
theorem C109_searched_at_most_once {E : Env A L Dev} {ops : List (Op A L N Dev)}
    {s : State A L N Dev} (h : exec E .empty ops = some s) (f : Nat) :
    returned E f (s.hcalls f) ≤ handed f ops := by
  have key : ∀ (ops : List (Op A L N Dev)) (a b : State A L N Dev), exec E a ops = some b →
      returned E f (b.hcalls f) + waiting f b.hcells ≤
        returned E f (a.hcalls f) + waiting f a.hcells + handed f ops := by
    intro ops
    induction ops with
    | nil => intro a b h; cases h; simp [handed]
    | cons op ops ih =>
      intro a b h
      obtain ⟨-, h⟩ := exec_cons h
      have h1 := ih _ _ h
      have h2 := hits_step E a op f
      have h3 : handed f (op :: ops) = handed f [op] + handed f ops := by
        simp only [handed, List.countP_cons, List.countP_nil]
        omega
      omega
  have := key ops _ _ h
  have h0 : returned E f ((State.empty (A := A) (L := L) (N := N) (Dev := Dev)).hcalls f) = 0 := by
    simp [State.empty, returned]
  have h1 : waiting f (State.empty (A := A) (L := L) (N := N) (Dev := Dev)).hcells = 0 := by
    simp [State.empty, waiting]
  omega

/-- The call gives channel `i` new hits. -/
def Op.setsHits (i : Nat) : Op A L N Dev → Bool
  | .setHits j _ | .setHitsFn j _ => i == j
  | _ => false

/-- The pointer of channel `i` to its hits. -/
def hitsPtr (s : State A L N Dev) (i : Nat) : Option (Option Nat) := (s.chans[i]?).map Chan.hits

theorem set_ptr {s : State A L N Dev} {i j : Nat} {c c' : Chan N Dev} (hc : s.chans[i]? = some c)
    (h : c'.hits = c.hits) : ((s.chans.set i c')[j]?).map Chan.hits = (s.chans[j]?).map Chan.hits := by
  by_cases hij : i = j
  · subst hij
    have := (List.getElem?_eq_some_iff.mp hc).1
    simp [this, h, (List.getElem?_eq_some_iff.mp hc).2]
  · rw [List.getElem?_set_ne hij]

theorem put_hits (c : Chan N Dev) (x : Fld) (o : DObj Dev) : (c.put x o).hits = c.hits := by
  cases x <;> rfl

theorem ptr_step {E : Env A L Dev} {s : State A L N Dev} {op : Op A L N Dev} {j : Nat}
    (hj : j < s.chans.length) (h : op.setsHits j = false) :
    hitsPtr (step E s op).1 j = hitsPtr s j := by
  cases op <;> simp only [step, Op.setsHits, hitsPtr] at * <;> (repeat' split) <;>
    first
      | rfl
      | (rw [List.getElem?_append_left hj])
      | (refine set_ptr ‹_› ?_; first | exact put_hits _ _ _ | rfl)
      | (rw [List.getElem?_set_ne (fun e => by simp [e] at h)])

theorem len_step {E : Env A L Dev} {s : State A L N Dev} (op : Op A L N Dev) :
    s.chans.length ≤ (step E s op).1.chans.length := by
  cases op <;> simp only [step] <;> (repeat' split) <;> simp

/-- A list of hits stays where it is. -/
theorem val_step {E : Env A L Dev} {s : State A L N Dev} (op : Op A L N Dev) {k : Nat} {l : L}
    (h : s.hcells[k]? = some (.val l)) : (step E s op).1.hcells[k]? = some (.val l) := by
  cases op
  case hits i =>
    simp only [step]
    (repeat' split) <;> try exact h
    next m _ _ f hm _ _ _ =>
    have : m ≠ k := by rintro rfl; rw [hm] at h; cases h
    rw [List.getElem?_set_ne this]; exact h
  all_goals
    simp only [step]; (repeat' split) <;> first | exact h | exact Deferred.get_app _ h

theorem keep_exec {E : Env A L Dev} {j k : Nat} {l : L} (ops : List (Op A L N Dev)) :
    ∀ {s t : State A L N Dev}, (∀ op ∈ ops, op.setsHits j = false) → exec E s ops = some t →
      hitsPtr s j = some (some k) → s.hcells[k]? = some (.val l) →
      hitsPtr t j = some (some k) ∧ t.hcells[k]? = some (.val l) := by
  induction ops with
  | nil => intro s t _ h hp hv; cases h; exact ⟨hp, hv⟩
  | cons op ops ih =>
    intro s t hs h hp hv
    obtain ⟨-, h⟩ := exec_cons h
    have hj : j < s.chans.length := by
      unfold hitsPtr at hp
      by_contra hn
      rw [List.getElem?_eq_none (by omega)] at hp
      simp at hp
    exact ih (fun o ho => hs o (by simp [ho])) h
      (by rw [ptr_step hj (hs op (by simp))]; exact hp) (val_step op hv)

theorem ptr_exec {E : Env A L Dev} {j : Nat} (ops : List (Op A L N Dev)) :
    ∀ {s t : State A L N Dev}, j < s.chans.length → (∀ op ∈ ops, op.setsHits j = false) →
      exec E s ops = some t → hitsPtr t j = hitsPtr s j := by
  induction ops with
  | nil => intro s t _ _ h; cases h; rfl
  | cons op ops ih =>
    intro s t hj hs h
    obtain ⟨-, h⟩ := exec_cons h
    rw [ih (Nat.lt_of_lt_of_le hj (len_step op)) (fun o ho => hs o (by simp [ho])) h,
      ptr_step hj (hs op (by simp))]

/-- What a successful `hits()` leaves behind. -/
theorem hits_found {E : Env A L Dev} {s : State A L N Dev} {i : Nat} {l : L}
    (h : (step E s (.hits i)).2 = .ok (.hits l)) :
    ∃ k, hitsPtr s i = some (some k) ∧ (step E s (.hits i)).1.hcells[k]? = some (.val l) := by
  simp only [step, hitsPtr] at *
  cases hi : s.chans[i]? with
  | none => simp [hi] at h
  | some c =>
    simp only [hi] at h
    cases hc : c.hits with
    | none => simp [hc] at h
    | some k =>
      refine ⟨k, by simp [hc], ?_⟩
      simp only [hc] at h ⊢
      cases hk : s.hcells[k]? with
      | none => simp [hk] at h
      | some cell =>
        simp only [hk] at h ⊢
        cases cell with
        | val m => simp at h; subst h; exact hk
        | fn f =>
          dsimp only at h ⊢
          cases hf : E.hits f (s.hcalls f) with
          | error e => simp [hf] at h
          | ok m =>
            simp [hf] at h
            subst h
            have := (List.getElem?_eq_some_iff.mp hk).1
            simp [this]

theorem hits_of_val {E : Env A L Dev} {s : State A L N Dev} {i k : Nat} {l : L}
    (hp : hitsPtr s i = some (some k)) (hv : s.hcells[k]? = some (.val l)) :
    step E s (.hits i) = (s, .ok (.hits l)) := by
  simp only [hitsPtr, Option.map_eq_some_iff] at hp
  obtain ⟨c, hc, hk⟩ := hp
  simp [step, hc, hk, hv]

/-- **C109**: once `hits()` of a channel returned a list, it returns the same list and calls nothing,
until the channel is given new hits; whatever the functions do. -/
theorem C109_hits_stay {E : Env A L Dev} {s t : State A L N Dev} {i : Nat} {l : L}
    {between : List (Op A L N Dev)} (h : (step E s (.hits i)).2 = .ok (.hits l))
    (ht : exec E s (.hits i :: between) = some t)
    (hset : ∀ op ∈ between, op.setsHits i = false) : step E t (.hits i) = (t, .ok (.hits l)) := by
  obtain ⟨k, hp, hv⟩ := hits_found h
  obtain ⟨-, ht⟩ := exec_cons ht
  have hj : i < s.chans.length := by
    unfold hitsPtr at hp
    by_contra hn
    rw [List.getElem?_eq_none (by omega)] at hp
    simp at hp
  obtain ⟨h1, h2⟩ := keep_exec between hset ht (by rw [ptr_step hj rfl]; exact hp) hv
  exact hits_of_val h1 h2

/-- **C109**: the search is shared with copies. When a channel is copied and later one of the two,
`a`, returned a list of hits, the other, `b`, returns the same list and calls nothing, until one
of them is given new hits. -/
theorem C109_copies_share_the_search {E : Env A L Dev} {s t u : State A L N Dev} {i a b : Nat}
    {l : L} {between after : List (Op A L N Dev)}
    (hab : (a = i ∧ b = s.chans.length) ∨ (a = s.chans.length ∧ b = i))
    (ht : exec E s (.copy i :: between) = some t)
    (hset : ∀ op ∈ between, op.setsHits a = false ∧ op.setsHits b = false)
    (h : (step E t (.hits a)).2 = .ok (.hits l)) (hu : exec E t (.hits a :: after) = some u)
    (hset' : ∀ op ∈ after, op.setsHits b = false) : step E u (.hits b) = (u, .ok (.hits l)) := by
  obtain ⟨k, hp, hv⟩ := hits_found h
  obtain ⟨hn, ht⟩ := exec_cons ht
  obtain ⟨-, hu⟩ := exec_cons hu
  simp only [step] at hn ht
  cases hi : s.chans[i]? with
  | none => simp [hi] at hn
  | some c =>
    simp only [hi] at ht
    have hil := (List.getElem?_eq_some_iff.mp hi).1
    have hpa := ptr_exec (j := a) between (by simp; omega) (fun o ho => (hset o ho).1) ht
    have hpb := ptr_exec (j := b) between (by simp; omega) (fun o ho => (hset o ho).2) ht
    have hsame : hitsPtr { s with chans := s.chans ++ [c] } a =
        hitsPtr { s with chans := s.chans ++ [c] } b := by
      simp only [hitsPtr]
      rcases hab with ⟨rfl, rfl⟩ | ⟨rfl, rfl⟩ <;>
        · rw [List.getElem?_append_left hil, hi]; simp
    have hb : hitsPtr t b = some (some k) := by rw [hpb, ← hsame, ← hpa]; exact hp
    have hj : b < t.chans.length := by
      unfold hitsPtr at hb
      by_contra hn
      rw [List.getElem?_eq_none (by omega)] at hb
      simp at hb
    obtain ⟨h1, h2⟩ := keep_exec after hset' hu (by rw [ptr_step hj rfl]; exact hb) hv
    exact hits_of_val h1 h2

/-! ## Limits and concrete cases -/

/-- Arrays as a value and the device they are on; function `f` gives `100 f`, or `100 f` plus the
number of the call; functions from 7 on throw. -/
def exEnv (steady : Bool) : Env (Nat × Nat) Nat Nat where
  arr := fun f k => if f < 7 then .ok (100 * f + (if steady then 0 else k), 0)
    else .error .runtimeError
  hits := fun f k => if f < 7 then .ok (10 * f + (if steady then 0 else k)) else .error .logicError
  plane := fun f k => if f < 7 then
      .ok ((1000 * f + (if steady then 0 else k), 0), (1, 0), (2, 0), (3, 0))
    else .error .runtimeError
  move := fun d a => (a.1, d)
  usable := fun d => d < 3
  cpu := 0
  dflt := 0

theorem exEnv_steady : Steady (exEnv true) :=
  ⟨fun _ _ => rfl, fun _ _ => rfl, fun _ _ => rfl⟩

theorem exEnv_moveLast (b : Bool) : MoveLast (exEnv b) := fun _ _ _ => rfl

/-- **C108** fails for functions whose result changes: two looks at a channel with nothing in
between show different data, because a function is called at every read. A file that is replaced
during a search is such a function; the mask of `flag_filter_rolloff` is another (C60). -/
theorem C108_unsteady_function :
    ∃ (E : Env (Nat × Nat) Nat Nat) (s t : State (Nat × Nat) Nat Nat Nat), MoveLast E ∧
      exec E .empty [.new, .setFn 0 .data .lazy 1] = some s ∧
      exec E s [.read 0 .data] = some t ∧
      (step E s (.read 0 .data)).2 ≠ (step E t (.read 0 .data)).2 :=
  ⟨exEnv false, _, _, exEnv_moveLast _, rfl, rfl, by decide⟩

/-- **C108**: a channel that was given no data, as those read back from a file of hits, must not be
asked for its data or pushed to a device: the code dereferences a null pointer. -/
theorem C108_no_data_ub (E : Env A L Dev) (s : State A L N Dev) (x : Fld) :
    let s' := (step E s .new).1
    (step E s' (.read s.chans.length x)).2 = .ub ∧ (step E s' (.push s.chans.length)).2 = .ub := by
  cases x <;> simp [step, Chan.get, toDev]

/-- A program with copies, functions of all policies, device moves, a stored plane that is shared
and pushed, and calls that throw. -/
def exOps : List (Op (Nat × Nat) Nat Nat Nat) :=
  [.new, .setFn 0 .data .lazy 1, .setFn 0 .mask .memoize 2, .copy 0, .setDevice 0 2, .setDevice 1 5,
   .read 0 .mask, .read 1 .mask, .read 1 .data, .setArr 1 .mask (7, 1), .read 0 .mask, .read 1 .mask,
   .hits 0, .setHitsFn 0 3, .copy 0, .hits 2, .hits 0, .hasHits 1,
   .newPlane (5, 0) ((1, 0), (2, 0), (3, 0)), .setPlane 0 0, .copy 0, .setDevice 3 1, .push 3,
   .plane 0, .planeArr 1, .planeRfi 1, .plane 3, .planeArr 2, .setHitsFn 0 9, .hits 0, .noise 0,
   .setNoise 0 4, .noise 0, .push 0, .device 0, .setFn 1 .data .eager 8]

/-- What the program sees. -/
def exSeen : List (Outcome (Val (Nat × Nat) Nat Nat Nat)) :=
  [.ok .unit, .ok .unit, .ok .unit, .ok .unit, .ok .unit, .throws .runtimeError,
   .ok (.arr (200, 2)), .ok (.arr (200, 0)), .ok (.arr (100, 0)), .ok .unit, .ok (.arr (200, 2)),
   .ok (.arr (7, 0)),
   .throws .logicError, .ok .unit, .ok .unit, .ok (.hits 30), .ok (.hits 30), .ok (.bool false),
   .ok .unit, .ok .unit, .ok .unit, .ok .unit, .ok .unit,
   .ok .unit, .ok (.arr (5, 2)), .ok (.flags ((1, 2), (2, 2), (3, 2))), .ok .unit,
   .ok (.arr (5, 1)), .ok .unit, .throws .logicError, .throws .logicError,
   .ok .unit, .ok (.noise 4), .ok .unit, .ok (.dev 2), .throws .runtimeError]

example : run (exEnv true) .empty exOps = exSeen := by decide +kernel
example : vrun (exEnv true) .empty exOps = exSeen := by decide +kernel

/-- Hypotheses of `C108_only_setting_changes_partial` and `C108_copy_independent_partial`: a channel,
a copy, and then settings and reads of the original. -/
example : ∃ s t : State (Nat × Nat) Nat Nat Nat,
    exec (exEnv true) .empty [.new, .setFn 0 .data .memoize 1] = some s ∧
    exec (exEnv true) s (.copy 0 :: [.read 0 .data, .setDevice 0 2, .setArr 0 .data (5, 5)]) = some t ∧
    s.chans.length = 1 ∧ (step (exEnv true) t (.read 1 .data)).2 = .ok (.arr (100, 0)) ∧
    (step (exEnv true) t (.read 0 .data)).2 = .ok (.arr (5, 2)) :=
  ⟨_, _, rfl, rfl, rfl, rfl, rfl⟩

/-- Hypotheses of `C109_copies_share_the_search`, with a function that would give another list at a
second call. -/
example : ∃ s t u : State (Nat × Nat) Nat Nat Nat,
    exec (exEnv false) .empty [.new, .setHitsFn 0 3] = some s ∧
    exec (exEnv false) s (.copy 0 :: [.setNoise 1 2]) = some t ∧
    (step (exEnv false) t (.hits 1)).2 = .ok (.hits 30) ∧
    exec (exEnv false) t (.hits 1 :: [.setHits 1 5]) = some u ∧
    (step (exEnv false) u (.hits 0)).2 = .ok (.hits 30) ∧
    (step (exEnv false) u (.hits 1)).2 = .ok (.hits 5) ∧ u.hcalls 3 = 1 :=
  ⟨_, _, _, rfl, rfl, rfl, rfl, rfl, rfl, rfl⟩

end Bliss.Channel
