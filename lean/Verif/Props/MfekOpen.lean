import Verif.Props.MfekEdit
/-!
# Opening, closing, slicing and appending (C49), and the iterator over points (C61)
-/
open Fl
namespace GP
open Spec

variable {PD : Type}

/-! ## C49 -/

theorem sameButType_cubic (p : Point PD) (t : PointType) : sameButType (.cubic p) (.cubic { p with ptype := t }) := rfl

theorem sameButType_quad (p : QPoint PD) (t : PointType) : sameButType (.quad p) (.quad { p with ptype := t }) := rfl

theorem onlyFirst_cubic (p : Point PD) (t : PointType) (c : List (Point PD)) :
    OnlyFirstType (.cubic (p :: c)) (.cubic ({ p with ptype := t } :: c)) := by
  refine ⟨rfl, by simp [pts], fun n hn => ?_, fun a b ha hb => ?_⟩
  · cases n with
    | zero => exact absurd rfl hn
    | succ n => rfl
  · cases ha
    cases hb
    exact sameButType_cubic p t

theorem onlyFirst_quad (p : QPoint PD) (t : PointType) (c : List (QPoint PD)) :
    OnlyFirstType (.quad (p :: c)) (.quad ({ p with ptype := t } :: c)) := by
  refine ⟨rfl, by simp [pts], fun n hn => ?_, fun a b ha hb => ?_⟩
  · cases n with
    | zero => exact absurd rfl hn
    | succ n => rfl
  · cases ha
    cases hb
    exact sameButType_quad p t

theorem onlyFirst_hyper (c : HyperInner PD) (o : Bool) : OnlyFirstType (.hyper c) (.hyper { c with isOpen := o }) := by
  refine ⟨rfl, rfl, fun n _ => rfl, fun a b ha hb => ?_⟩
  have : a = b := Option.some.inj (ha.symm.trans hb)
  subst this
  rcases List.getElem?_map (f := MPoint.hyper) (l := c.points) (i := 0) ▸ ha with ha
  cases hc : c.points[0]? with
  | none => simp [hc] at ha
  | some x =>
    simp only [hc, Option.map_some, Option.some.injEq] at ha
    subst ha
    rfl

/-- What the question answers: whether the contour is open; it panics for quadratic contours without points. -/
theorem C49_is_open (c : MContour PD) :
    (c.isOpen = .ok true ↔ IsOpen c.inner) ∧
    (c.isOpen = .panic ↔ kind c.inner = .quad ∧ pts c.inner = []) ∧ (∀ e, c.isOpen ≠ .err e) ∧
    ∀ b, c.inner.isClosed = .ok b ↔ c.isOpen = .ok (!b) := by
  rcases c with ⟨i, op⟩
  cases i with
  | cubic c =>
    rcases c with _ | ⟨p, _ | ⟨q, c⟩⟩ <;>
      simp [MContour.isOpen, MInner.isOpen, MInner.isClosed, GP.isOpen, IsOpen, kind]
    omega
  | quad c =>
    cases c <;> simp [MContour.isOpen, MInner.isOpen, MInner.isClosed, IsOpen, kind, pts]
  | hyper c =>
    simp [MContour.isOpen, MInner.isOpen, MInner.isClosed, IsOpen, kind]

/-- **C49.** `set_open` makes a contour open, does nothing the second time, changes only the type of the
first point, to a move point, and leaves the operation alone. -/
theorem C49_set_open (c c' : MContour PD) (h : c.setOpen = .ok c') :
    c'.isOpen = .ok true ∧ c'.setOpen = .ok c' ∧ OnlyFirstType c.inner c'.inner ∧ StartsWith .move c'.inner ∧
      c'.operation = c.operation := by
  rcases c with ⟨i, op⟩
  obtain ⟨j, hj, rfl⟩ := fmap_ok.1 h
  cases i with
  | cubic c =>
    cases c with
    | nil => exact nomatch hj
    | cons p c =>
      cases hj
      refine ⟨?_, rfl, onlyFirst_cubic p _ c, ⟨_, rfl, rfl⟩, rfl⟩
      cases c <;> rfl
  | quad c =>
    cases c with
    | nil => exact nomatch hj
    | cons p c =>
      cases hj
      exact ⟨rfl, rfl, onlyFirst_quad p _ c, ⟨_, rfl, rfl⟩, rfl⟩
  | hyper c =>
    cases hj
    exact ⟨rfl, rfl, onlyFirst_hyper c true, trivial, rfl⟩

/-- What is left open by `set_closed`: cubic contours of a single point. -/
def Spec.StaysOpen (i : MInner PD) : Prop := kind i = .cubic ∧ (pts i).length = 1

/-- **C49.** `set_closed` does nothing the second time, changes only the type of the first point, to a curve
point, and leaves the operation alone. -/
theorem C49_set_closed (c c' : MContour PD) (h : c.setClosed = .ok c') :
    c'.setClosed = .ok c' ∧ OnlyFirstType c.inner c'.inner ∧ StartsWith .curve c'.inner ∧ c'.operation = c.operation := by
  rcases c with ⟨i, op⟩
  obtain ⟨j, hj, rfl⟩ := fmap_ok.1 h
  cases i with
  | cubic c =>
    cases c with
    | nil => exact nomatch hj
    | cons p c => cases hj; exact ⟨rfl, onlyFirst_cubic p _ c, ⟨_, rfl, rfl⟩, rfl⟩
  | quad c =>
    cases c with
    | nil => exact nomatch hj
    | cons p c => cases hj; exact ⟨rfl, onlyFirst_quad p _ c, ⟨_, rfl, rfl⟩, rfl⟩
  | hyper c => cases hj; exact ⟨rfl, onlyFirst_hyper c false, trivial, rfl⟩

/-- **C49**, as far as it holds: `set_closed` makes a contour closed, unless it is a cubic contour of one
point, which stays open. -/
theorem C49_set_closed_partial (c c' : MContour PD) (h : c.setClosed = .ok c') :
    (c'.isOpen = .ok false ↔ ¬ StaysOpen c.inner) ∧ (c'.isOpen = .ok true ↔ StaysOpen c.inner) := by
  rcases c with ⟨i, op⟩
  obtain ⟨j, hj, rfl⟩ := fmap_ok.1 h
  unfold StaysOpen
  cases i with
  | cubic c =>
    match c, hj with
    | [], hj => exact nomatch hj
    | [p], hj => cases hj; simp [MContour.isOpen, MInner.isOpen, GP.isOpen, kind, pts]
    | p :: q :: c, hj => cases hj; simp [MContour.isOpen, MInner.isOpen, GP.isOpen, kind, pts]
  | quad c =>
    cases c with
    | nil => exact nomatch hj
    | cons p c => cases hj; simp [MContour.isOpen, MInner.isOpen, kind]
  | hyper c => cases hj; simp [MContour.isOpen, MInner.isOpen, kind]

/-- **C49 is false of the code** for cubic contours of one point, which `set_closed` leaves open. -/
theorem C49_false_single (p : Point PD) (op : Option (ContourOp (MContour PD))) :
    ∃ c', (⟨.cubic [p], op⟩ : MContour PD).setClosed = .ok c' ∧ c'.isOpen = .ok true := ⟨_, rfl, rfl⟩

/-- Opening and closing never fail, and panic exactly for cubic and quadratic contours without points. -/
theorem C49_panics (c : MContour PD) :
    (c.setOpen = .panic ↔ kind c.inner ≠ .hyper ∧ pts c.inner = []) ∧
    (c.setClosed = .panic ↔ kind c.inner ≠ .hyper ∧ pts c.inner = []) ∧
    (∀ e, c.setOpen ≠ .err e) ∧ ∀ e, c.setClosed ≠ .err e := by
  rcases c with ⟨i, op⟩
  cases i with
  | cubic c => cases c <;> simp [MContour.setOpen, MContour.setClosed, MInner.setOpen, MInner.setClosed, kind, pts]
  | quad c => cases c <;> simp [MContour.setOpen, MContour.setClosed, MInner.setOpen, MInner.setClosed, kind, pts]
  | hyper c => simp [MContour.setOpen, MContour.setClosed, MInner.setOpen, MInner.setClosed, kind]

/-- **C49.** Slicing returns exactly the points `s..e`, in a contour of the same kind; out of range it panics. -/
theorem C49_sub (i : MInner PD) (s e : Nat) :
    (s ≤ e ∧ e ≤ (pts i).length → ∃ j, i.sub s e = .ok j ∧ kind j = kind i ∧ (pts j).length = e - s ∧
      (∀ n, n < e - s → (pts j)[n]? = (pts i)[s + n]?) ∧ ∀ c, i = .hyper c → j.isOpen = .ok c.isOpen) ∧
    (¬(s ≤ e ∧ e ≤ (pts i).length) → i.sub s e = .panic) := by
  constructor
  · rintro ⟨h1, h2⟩
    have hex : ∃ j, i.sub s e = .ok j := by
      cases i with
      | cubic c => exact ⟨_, fmap_ok.2 ⟨_, slice_ok.2 ⟨h1, by simpa [pts] using h2, rfl⟩, rfl⟩⟩
      | quad c => exact ⟨_, fmap_ok.2 ⟨_, slice_ok.2 ⟨h1, by simpa [pts] using h2, rfl⟩, rfl⟩⟩
      | hyper c => exact ⟨_, fmap_ok.2 ⟨_, slice_ok.2 ⟨h1, by simpa [pts] using h2, rfl⟩, rfl⟩⟩
    obtain ⟨j, hj⟩ := hex
    obtain ⟨_, _, hk, hp, ho⟩ := sub_ok.1 hj
    refine ⟨j, hj, hk, by rw [hp]; simp; omega, fun n hn => ?_, ?_⟩
    · rw [hp, List.getElem?_drop, List.getElem?_take, if_pos (by omega)]
    · rintro c rfl
      cases j with
      | cubic d => exact nomatch hk
      | quad d => exact nomatch hk
      | hyper d => exact congrArg Out.ok (Option.some.inj ho)
  · intro hn
    cases hj : i.sub s e with
    | ok j => exact absurd ⟨(sub_ok.1 hj).1, (sub_ok.1 hj).2.1⟩ hn
    | err x => exact absurd hj (sub_no_err _ _ _ _)
    | panic => rfl

/-- **C49.** Appending concatenates the points of contours of the same kind and otherwise fails. -/
theorem C49_append (i j : MInner PD) :
    (kind i = kind j → ∃ k, i.append j = .ok k ∧ kind k = kind i ∧ pts k = pts i ++ pts j) ∧
    (kind i ≠ kind j → i.append j = .err .mismatch) := by
  constructor
  · intro h
    cases i <;> cases j <;> first | exact ⟨_, rfl, rfl, by simp [pts]⟩ | cases h
  · exact append_err.1.2

/-- **C49.** Slicing the points in two and appending the halves gives them back. -/
theorem C49_halves (i : MInner PD) (k : Nat) (hk : k ≤ (pts i).length) :
    ∃ a b, i.sub 0 k = .ok a ∧ i.sub k (pts i).length = .ok b ∧ a.append b = .ok i := by
  obtain ⟨a, ha, -⟩ := (C49_sub i 0 k).1 ⟨Nat.zero_le _, hk⟩
  obtain ⟨b, hb, -⟩ := (C49_sub i k (pts i).length).1 ⟨hk, Nat.le_refl _⟩
  refine ⟨a, b, ha, hb, append_ok.2 ?_⟩
  obtain ⟨_, _, a1, a2, a3⟩ := sub_ok.1 ha
  obtain ⟨_, _, b1, b2, b3⟩ := sub_ok.1 hb
  refine ⟨a1.trans b1.symm, a1.symm, ?_, a3.symm⟩
  rw [a2, b2, List.take_length, List.drop_zero, List.take_append_drop]

/-- **C49**, as far as it holds for contours with operations: a contour without width handles is given back
by slicing in two and appending. -/
theorem C49_halves_partial (c : MContour PD) (hw : widths c = none) (k : Nat) (hk : k ≤ (pts c.inner).length) :
    ∃ a b, c.sub 0 k = .ok a ∧ c.sub k (pts c.inner).length = .ok b ∧ a.append b = .ok c := by
  obtain ⟨a, b, ha, hb, hab⟩ := C49_halves c.inner k hk
  rcases c with ⟨i, op⟩
  have hop : (∀ s e, opSub op s e = .ok op) ∧ ∀ d, opAppend op d = op := by
    cases op with
    | none => exact ⟨fun _ _ => rfl, fun _ => rfl⟩
    | some o =>
      cases o with
      | vws d => exact nomatch hw
      | pap d => exact ⟨fun _ _ => rfl, fun _ => rfl⟩
      | dash d => exact ⟨fun _ _ => rfl, fun _ => rfl⟩
  refine ⟨⟨a, op⟩, ⟨b, op⟩, ?_, ?_, ?_⟩
  · unfold MContour.sub
    simp only [ha, hop.1, Out.bind_ok]
  · unfold MContour.sub
    simp only [hb, hop.1, Out.bind_ok]
  · unfold MContour.append
    simp only [hab, hop.2, Out.bind_ok]

/-- For a contour with width handles the handle where the halves meet is doubled: the points come back, with
two handles more than points. -/
theorem C49_stroked (c a b c' : MContour PD) (w : List VwsHandle) (k : Nat) (hw : widths c = some w)
    (ha : c.sub 0 k = .ok a) (hb : c.sub k (pts c.inner).length = .ok b) (hc : a.append b = .ok c') :
    c'.inner = c.inner ∧ widths c' = some (w.take (k + 1) ++ (w.take ((pts c.inner).length + 1)).drop k) ∧ InStep 2 c' := by
  obtain ⟨wa, hwa, a1, a2⟩ := C48_widths c a (.sub 0 k) w hw ha
  obtain ⟨wb, hwb, b1, b2⟩ := C48_widths c b (.sub k (pts c.inner).length) w hw hb
  obtain ⟨wc, hwc, hcc⟩ := C48_widths a c' (.append b) wa hwa hc
  have hcc : wc = wa ++ (widths b).getD _ := hcc
  rw [hwb, Option.getD_some, a2, b2, List.drop_zero] at hcc
  have hk := (C48_points c b (.sub k (pts c.inner).length) hb).2.1
  have hi : c'.inner = c.inner := by
    obtain ⟨x, y, hx, hy, hxy⟩ := C49_halves c.inner k hk
    unfold MContour.sub at ha hb
    unfold MContour.append at hc
    cases ho : opSub c.operation 0 k with
    | err x => simp only [hx, ho] at ha; exact nomatch ha
    | panic => simp only [hx, ho] at ha; exact nomatch ha
    | ok oa =>
      cases ho' : opSub c.operation k (pts c.inner).length with
      | err x => simp only [hy, ho'] at hb; exact nomatch hb
      | panic => simp only [hy, ho'] at hb; exact nomatch hb
      | ok ob =>
        simp only [hx, ho] at ha
        simp only [hy, ho'] at hb
        cases ha
        cases hb
        simp only [hxy] at hc
        cases hc
        rfl
  refine ⟨hi, by rw [hwc, hcc], fun v hv => ?_⟩
  rw [hwc] at hv
  cases hv
  rw [hcc, hi, List.length_append, List.length_drop, List.length_take, List.length_take]
  omega

/-- **C49 is false of the code** for every contour with width handles, as many as there are points or one
more: it cannot be sliced in two and appended again. -/
theorem C49_false_stroked (c : MContour PD) (m : Int) (hm : m < 2) (hc : InStep m c) (hw : (widths c).isSome = true) (k : Nat) :
    ¬ ∃ a b, c.sub 0 k = .ok a ∧ c.sub k (pts c.inner).length = .ok b ∧ a.append b = .ok c := by
  rintro ⟨a, b, ha, hb, hab⟩
  obtain ⟨w, hw⟩ := Option.isSome_iff_exists.1 hw
  have h1 := (C49_stroked c a b c w k hw ha hb hab).2.2 w hw
  have h2 := hc w hw
  omega

example : ∃ c', (⟨.quad [{}, { ptype := .line }], none⟩ : MContour Unit).setOpen = .ok c' ∧ c'.isOpen = .ok true :=
  ⟨_, rfl, rfl⟩

example : InStep 1 (strokeSample 3 4) ∧ (strokeSample 3 4).sub 0 2 = .ok (strokeSample 2 3) := ⟨stroke_instep 3 4, rfl⟩

/-! ## C61 -/

/-- **C61.** The iterator over a contour gives each of its points once, in order, and then ends. -/
theorem C61_iterator (c : MContour PD) (n : Nat) (hn : (pts c.inner).length ≤ n) : c.iterFrom n 0 = pts c.inner := by
  have key : ∀ n i, (pts c.inner).length ≤ n + i → c.iterFrom n i = (pts c.inner).drop i := by
    intro n
    induction n with
    | zero => intro i h; rw [List.drop_eq_nil_of_le (by omega)]; rfl
    | succ n ih =>
      intro i h
      unfold MContour.iterFrom
      rw [getPoint_pts]
      by_cases hi : i < (pts c.inner).length
      · rw [List.getElem?_eq_getElem hi, List.drop_eq_getElem_cons hi]
        simp only
        rw [ih (i + 1) (by omega)]
      · rw [List.getElem?_eq_none (by omega), List.drop_eq_nil_of_le (by omega)]
  simpa using key n 0 (by omega)

end GP
