import Verif.Props.Numbers
import Verif.Props.MfekSkia
/-!
# Conversions and accessors (C74 to C78)
-/
open Fl
namespace GP
variable {PD : Type}
open Spec

/-! ## C74: path elements -/

theorem kpoint_ofKurbo (p : F64 × F64) (t : PointType) (h : f32Point p) : (GlifPoint.ofKurbo p t).kpoint = p := by
  show (p.1.to32.to64, p.2.to32.to64) = p
  rw [(isF32_iff _).2 h.1, (isF32_iff _).2 h.2]

/-- What C74 comes to: an element becomes a pen operation of the same kind and, back again, the element with
its first and last points swapped. -/
theorem C74_exact (e : PathEl) (h : f32s e) : e.penOp.pathEl = swappedEl e := by
  cases e with
  | moveTo p => exact congrArg _ (kpoint_ofKurbo p _ h)
  | lineTo p => exact congrArg _ (kpoint_ofKurbo p _ h)
  | quadTo c p =>
    show PathEl.quadTo _ _ = _
    rw [kpoint_ofKurbo _ _ h.1, kpoint_ofKurbo _ _ h.2]
    rfl
  | curveTo c1 c2 p =>
    show PathEl.curveTo _ _ _ = _
    rw [kpoint_ofKurbo _ _ h.1, kpoint_ofKurbo _ _ h.2.1, kpoint_ofKurbo _ _ h.2.2]
    rfl
  | closePath => rfl

/-- **C74.** The operation is valid, and so has points of the types it should have, exactly when the points
of the element are valid as `f32`s. -/
theorem C74_valid (e : PathEl) : e.penOp.isValid = true ↔ ∀ p ∈ elPoints e, Sound p.1.to32 ∧ Sound p.2.to32 := by
  have h : ∀ (p : F64 × F64) (t : PointType), t ≠ .undefined →
      ((GlifPoint.ofKurbo p t).isValid = true ↔ Sound p.1.to32 ∧ Sound p.2.to32) := by
    intro p t ht
    rw [C54_file_point_iff]
    refine ⟨fun h => ⟨h.2.1 _ rfl, h.2.2 _ rfl⟩, fun h => ⟨ht, ?_, ?_⟩⟩
    · intro f hf; cases hf; exact h.1
    · intro f hf; cases hf; exact h.2
  cases e with
  | moveTo p =>
    simp only [PathEl.penOp, PenOp.isValid, elPoints, Bool.and_eq_true, h p .move (by decide), List.forall_mem_singleton]
    exact ⟨fun x => x.2, fun x => ⟨rfl, x⟩⟩
  | lineTo p =>
    simp only [PathEl.penOp, PenOp.isValid, elPoints, Bool.and_eq_true, h p .line (by decide), List.forall_mem_singleton]
    exact ⟨fun x => x.2, fun x => ⟨rfl, x⟩⟩
  | quadTo c p =>
    simp only [PathEl.penOp, PenOp.isValid, elPoints, Bool.and_eq_true, h c .qcurve (by decide), h p .offcurve (by decide),
      List.forall_mem_cons]
    exact ⟨fun x => ⟨x.1.1.2, x.2, nofun⟩, fun x => ⟨⟨⟨rfl, x.1⟩, rfl⟩, x.2.1⟩⟩
  | curveTo c1 c2 p =>
    simp only [PathEl.penOp, PenOp.isValid, elPoints, Bool.and_eq_true, h c1 .curve (by decide), h c2 .offcurve (by decide),
      h p .offcurve (by decide), List.forall_mem_cons]
    exact ⟨fun x => ⟨x.1.1.1.1.2, x.2, x.1.1.2, nofun⟩, fun x => ⟨⟨⟨⟨⟨rfl, x.1⟩, rfl⟩, x.2.2.1⟩, rfl⟩, x.2.1⟩⟩
  | closePath => exact ⟨fun _ _ h => (nomatch h), fun _ => rfl⟩

/-- **C74**, as far as it holds: moves, lines and the end of a contour survive the conversion to a pen
operation and back, and so do curves whose first control point is their end. -/
theorem C74_partial (e : PathEl) (h : f32s e) :
    e.penOp.pathEl = e ↔ (∀ c p, e = .quadTo c p → c = p) ∧ ∀ c1 c2 p, e = .curveTo c1 c2 p → c1 = p := by
  rw [C74_exact e h]
  cases e with
  | quadTo c p =>
    simp only [swappedEl, PathEl.quadTo.injEq]
    constructor
    · rintro ⟨h1, -⟩
      exact ⟨by rintro c' p' ⟨rfl, rfl⟩; exact h1.symm, nofun⟩
    · rintro ⟨h1, -⟩
      have := h1 c p ⟨rfl, rfl⟩
      exact ⟨this.symm, this⟩
  | curveTo c1 c2 p =>
    simp only [swappedEl, PathEl.curveTo.injEq]
    constructor
    · rintro ⟨h1, -, -⟩
      exact ⟨nofun, by rintro c' d' p' ⟨rfl, rfl, rfl⟩; exact h1.symm⟩
    · rintro ⟨-, h1⟩
      have := h1 c1 c2 p ⟨rfl, rfl, rfl⟩
      exact ⟨this.symm, trivial, this⟩
  | _ => exact ⟨fun _ => ⟨nofun, nofun⟩, fun _ => rfl⟩

example : (PathEl.curveTo (Flt.ofInt b64 1, Flt.ofInt b64 2) (Flt.ofInt b64 3, Flt.ofInt b64 4) (Flt.ofInt b64 5, Flt.ofInt b64 6)).penOp.pathEl =
    .curveTo (Flt.ofInt b64 5, Flt.ofInt b64 6) (Flt.ofInt b64 3, Flt.ofInt b64 4) (Flt.ofInt b64 1, Flt.ofInt b64 2) := by
  refine C74_exact _ ⟨⟨⟨Sample.f 1, ?_⟩, ⟨Sample.f 2, ?_⟩⟩, ⟨⟨Sample.f 3, ?_⟩, ⟨Sample.f 4, ?_⟩⟩, ⟨⟨Sample.f 5, ?_⟩, ⟨Sample.f 6, ?_⟩⟩⟩ <;> decide +kernel

/-- **C74 is false of the code**: a curve from kurbo becomes a pen operation that ends at its first control
point. -/
theorem C74_false : ∃ e : PathEl, f32s e ∧ e.penOp.isValid = true ∧ e.penOp.pathEl ≠ e := by
  let z : F64 := F32.to64 Flt.zero
  let o : F64 := F32.to64 one32
  have hz : isF32 z := ⟨Flt.zero, rfl⟩
  have ho : isF32 o := ⟨one32, rfl⟩
  refine ⟨.curveTo (z, z) (z, z) (o, o), ⟨⟨hz, hz⟩, ⟨hz, hz⟩, ⟨ho, ho⟩⟩, by decide +kernel, by decide +kernel⟩

/-! ## C75: handles and points -/

/-- **C75.** A handle as a point: the three conversions agree on the place `handle_or_colocated` gives, and
the point is a plain off-curve one without handles. -/
theorem C75_handle_points (p : Point PD) (wh : WhichHandle) :
    p.handleAsGpoint wh = GlifPoint.fromHandle p wh ∧
    p.handleAsPoint wh = { x := (p.handleOrColocated wh).1, y := (p.handleOrColocated wh).2, ptype := .offcurve } ∧
    p.handleAsKpoint wh = ((p.handleOrColocated wh).1.to64, (p.handleOrColocated wh).2.to64) := by
  unfold Point.handleAsPoint Point.handleAsKpoint Point.handleAsGpoint GlifPoint.fromHandle Point.handleOrColocated
  cases p.handle wh <;> exact ⟨rfl, rfl, rfl⟩

/-- **C75.** Making a handle explicit, by way of the point it is at, moves nothing. -/
theorem C75_explicit (p : Point PD) (wh wh' : WhichHandle) :
    (p.setHandle wh (.ofPoint (p.handleAsPoint wh))).handleOrColocated wh' = p.handleOrColocated wh' := by
  have e := (C75_handle_points p wh).2.1
  rw [e]
  unfold Handle.ofPoint
  cases wh with
  | neither => rfl
  | A =>
    cases wh' with
    | A => rfl
    | B => rfl
    | neither => rfl
  | B =>
    cases wh' with
    | A => rfl
    | B => rfl
    | neither => rfl

/-- **C75.** A point as a `GlifPoint` and back loses its handles and its data, and nothing else. -/
theorem C75_point (p : Point PD) :
    (Point.ofGlifPoint (GlifPoint.ofPoint p) : Point PD) = { p with a := .colocated, b := .colocated, data := none } := rfl

/-- **C75.** A `GlifPoint` as a point and back is itself exactly if its coordinates are held as floats; in any
case they are the same numbers as `f32`. -/
theorem C75_glif_point (g : GlifPoint) :
    (GlifPoint.ofPoint (Point.ofGlifPoint g : Point PD) = g ↔ g.x.isInt = false ∧ g.y.isInt = false) ∧
    (GlifPoint.ofPoint (Point.ofGlifPoint g : Point PD)).x.toF32 = g.x.toF32 ∧
    (GlifPoint.ofPoint (Point.ofGlifPoint g : Point PD)).y.toF32 = g.y.toF32 := by
  obtain ⟨x, y, s, n, t⟩ := g
  refine ⟨?_, rfl, rfl⟩
  cases x <;> cases y <;> simp [GlifPoint.ofPoint, Point.ofGlifPoint, IOF.isInt, IOF.ofF32, IOF.toF32]

/-! ## C76: colours -/

/-- **C76.** Four floats make a colour and are got back from it. -/
theorem C76_array (c : F32 × F32 × F32 × F32) : (Color.ofArray c).toArray = c := rfl

/-- **C76.** A colour is got back from its floats exactly if it holds no integers. -/
theorem C76_color (c : Color) :
    Color.ofArray c.toArray = c ↔ c.r.isInt = false ∧ c.g.isInt = false ∧ c.b.isInt = false ∧ c.a.isInt = false := by
  obtain ⟨r, g, b, a⟩ := c
  cases r <;> cases g <;> cases b <;> cases a <;> simp [Color.ofArray, Color.toArray, IOF.isInt, IOF.ofF32, IOF.toF32]

/-- **C76.** The property list value of a colour determines its floats, in the order red, green, blue, alpha. -/
theorem C76_plist (c : Color) : ∃ r g b a : F64, c.asPlist = .array [.other r, .other g, .other b, .other a] ∧
    (r.to32, g.to32, b.to32, a.to32) = c.toArray :=
  ⟨_, _, _, _, rfl, by simp only [to32_toF64, Color.toArray]⟩

/-! ## C77: guidelines -/

/-- **C77.** The property list of a guideline has its position and angle, and its name and colour if it has
them, and no other keys; no key is there twice. -/
theorem C77_plist (g : Guideline) :
    dictGet g.asPlistDict "x" = some (.other g.x.to64) ∧ dictGet g.asPlistDict "y" = some (.other g.y.to64) ∧
    dictGet g.asPlistDict "angle" = some (.other g.angle.toF64) ∧
    dictGet g.asPlistDict "name" = g.name.map .str ∧ dictGet g.asPlistDict "color" = g.color.map Color.asPlist ∧
    (g.asPlistDict.map Prod.fst).Nodup ∧
    (∀ k ∈ g.asPlistDict.map Prod.fst, k ∈ ["x".toList, "y".toList, "angle".toList, "name".toList, "color".toList]) := by
  obtain ⟨x, y, a, n, c, i⟩ := g
  cases n <;> cases c <;> simp [Guideline.asPlistDict, dictGet]

/-- **C77.** It determines the guideline, up to the identifier and to integers held as floats. -/
theorem C77_determines (g g' : Guideline) (h : g.asPlistDict = g'.asPlistDict) :
    g.x = g'.x ∧ g.y = g'.y ∧ g.angle.toF32 = g'.angle.toF32 ∧ g.name = g'.name ∧ g.color.map Color.toArray = g'.color.map Color.toArray := by
  have inj : ∀ a b : F32, a.to64 = b.to64 → a = b := fun a b e => by rw [← to32_to64 a, e, to32_to64]
  obtain ⟨h1, h2, h3, h4, h5, -, -⟩ := C77_plist g
  obtain ⟨k1, k2, k3, k4, k5, -, -⟩ := C77_plist g'
  rw [h] at h1 h2 h3 h4 h5
  refine ⟨?_, ?_, ?_, ?_, ?_⟩
  · have := h1.symm.trans k1
    simp only [Option.some.injEq, PValue.other.injEq] at this
    exact inj _ _ this
  · have := h2.symm.trans k2
    simp only [Option.some.injEq, PValue.other.injEq] at this
    exact inj _ _ this
  · have := h3.symm.trans k3
    simp only [Option.some.injEq, PValue.other.injEq] at this
    rw [← to32_toF64, ← to32_toF64, this]
  · have := h4.symm.trans k4
    cases hn : g.name <;> cases hn' : g'.name <;> simp_all
  · have := h5.symm.trans k5
    cases hn : g.color with
    | none => cases hn' : g'.color <;> simp_all
    | some c =>
      cases hn' : g'.color with
      | none => simp_all
      | some c' =>
        rw [hn, hn'] at this
        simp only [Option.map_some, Option.some.injEq, Color.asPlist, PValue.array.injEq, List.cons.injEq, PValue.other.injEq] at this
        obtain ⟨e1, e2, e3, e4, -⟩ := this
        simp only [Option.map_some, Color.toArray, ← to32_toF64, e1, e2, e3, e4]

example : ∃ g g' : Guideline, g ≠ g' ∧ g.asPlistDict = g'.asPlistDict :=
  ⟨{ x := Flt.zero, y := Sample.f 10, angle := .int 90, name := none, color := none, identifier := none },
    { x := Flt.zero, y := Sample.f 10, angle := .float (Sample.f 90), name := none, color := none, identifier := none },
    by simp, by
      simp only [Guideline.asPlistDict]
      rw [show (IOF.int 90).toF64 = (IOF.float (Sample.f 90)).toF64 by decide +kernel]⟩

/-- **C77 is false of the code** for identifiers: they are not in the property list. -/
theorem C77_false : ∃ g g' : Guideline, g.identifier ≠ g'.identifier ∧ g.asPlistDict = g'.asPlistDict :=
  ⟨.fromXYAngle Flt.zero Flt.zero default, (Guideline.fromXYAngle Flt.zero Flt.zero default).withIdentifier "a".toList, nofun, rfl⟩

/-- **C77.** A guideline is built of what it is given and of nothing else, whatever the order of the calls. -/
theorem C77_builders (x y : F32) (angle : IOF) (n i : Str) (c : Color) :
    Guideline.fromXYAngle x y angle = ⟨x, y, angle, none, none, none⟩ ∧
    ((Guideline.fromXYAngle x y angle).withName n |>.withColor c |>.withIdentifier i) = ⟨x, y, angle, some n, some c, some i⟩ ∧
    ((Guideline.fromXYAngle x y angle).withIdentifier i |>.withColor c |>.withName n) = ⟨x, y, angle, some n, some c, some i⟩ := ⟨rfl, rfl, rfl⟩

/-! ## C78: kinds of contours and their points -/

/-- **C78.** Of the three views of a contour exactly the one of its type is there. -/
theorem C78_views (i : MInner PD) :
    (i.asCubic.isSome = true ↔ i.getType = .cubic) ∧ (i.asQuad.isSome = true ↔ i.getType = .quad) ∧
    (i.asHyper.isSome = true ↔ i.getType = .hyper) := by
  cases i <;> simp [MInner.asCubic, MInner.asQuad, MInner.asHyper, MInner.getType]

/-- **C78.** A contour is empty exactly if its length is 0; it has points at the indices below its length, all
of its type. -/
theorem C78_points (i : MInner PD) (n : Nat) :
    (i.isEmpty = true ↔ i.len = 0) ∧ ((i.getPoint n).isSome = true ↔ n < i.len) ∧ (∀ p ∈ i.getPoint n, pointType p = i.getType) := by
  cases i <;> refine ⟨by simp [MInner.isEmpty, MInner.len], by simp [MInner.getPoint, MInner.len], ?_⟩ <;>
  · intro p hp
    simp only [MInner.getPoint, Option.mem_def, Option.map_eq_some_iff] at hp
    obtain ⟨q, -, rfl⟩ := hp
    rfl

/-- **C78.** Changing a point changes this point and no other, and neither the length nor the type of the
contour. -/
theorem C78_modify (i : MInner PD) (f : MPoint PD → MPoint PD) (hf : ∀ p, pointType (f p) = pointType p) (n m : Nat) :
    (i.modifyPoint f n).getPoint m = (if n = m then (i.getPoint m).map f else i.getPoint m) ∧
    (i.modifyPoint f n).len = i.len ∧ (i.modifyPoint f n).getType = i.getType := by
  cases i with
  | cubic c =>
    refine ⟨?_, by simp [MInner.modifyPoint, MInner.len], rfl⟩
    simp only [MInner.modifyPoint, MInner.getPoint, List.getElem?_modify]
    split
    · cases c[m]? with
      | none => rfl
      | some p =>
        have := hf (.cubic p)
        cases h : f (.cubic p) with
        | cubic q => simp [h]
        | _ => rw [h] at this; cases this
    · simp
  | quad c =>
    refine ⟨?_, by simp [MInner.modifyPoint, MInner.len], rfl⟩
    simp only [MInner.modifyPoint, MInner.getPoint, List.getElem?_modify]
    split
    · cases c[m]? with
      | none => rfl
      | some p =>
        have := hf (.quad p)
        cases h : f (.quad p) with
        | quad q => simp [h]
        | _ => rw [h] at this; cases this
    · simp
  | hyper c =>
    refine ⟨?_, by simp [MInner.modifyPoint, MInner.len], rfl⟩
    simp only [MInner.modifyPoint, MInner.getPoint, List.getElem?_modify]
    split
    · cases c.points[m]? with
      | none => rfl
      | some p =>
        have := hf (.hyper p)
        cases h : f (.hyper p) with
        | hyper q => simp [h]
        | _ => rw [h] at this; cases this
    · simp

/-- **C78.** All the setters of points keep their kind, so `C78_modify` applies to them. -/
theorem C78_setters (wh : WhichHandle) (h : Handle) (x y : F32) (n : Str) (s : Bool) (p : MPoint PD) :
    pointType (p.setHandle wh h) = pointType p ∧ pointType (p.setPosition x y) = pointType p ∧ pointType (p.setPositionNoHandles x y) = pointType p ∧
    pointType (p.setName n) = pointType p ∧ pointType (p.setSmooth s) = pointType p := by
  cases p <;> cases wh <;> exact ⟨rfl, rfl, rfl, rfl, rfl⟩

example : ((MInner.cubic [Sample.pt .line 0 0, Sample.pt .line 5 0]).modifyPoint (·.setSmooth true) 1).getPoint 1 =
    some (.cubic { Sample.pt .line 5 0 with smooth := true }) :=
  (C78_modify _ (·.setSmooth true) (fun p => (C78_setters .neither .colocated Flt.zero Flt.zero [] true p).2.2.2.2) 1 1).1

end GP
