import Verif.Model.Mfek
import Verif.Model.Skia
import Verif.Model.Image
/-!
# The editor's outlines as Skia paths (src/glif/mfek/mod.rs 135-175), and matrices for Skia
(src/matrix/skia.rs, src/image.rs 142-155)
-/
open Fl
namespace GP
variable {PD : Type}

/-- The loop src/glif/mfek/mod.rs 145-161.  State: `open`, `closed`. -/
def mSkPathsLoop (fx fy : F32 → F32) : List SkEl → List SkEl → MOutline PD → Out MfekErr (List SkEl × List SkEl)
  | op, cl, [] => .ok (op, cl)
  | op, cl, m :: rest =>
    match m.inner with
    | .cubic [] => mSkPathsLoop fx fy op cl rest
    | .cubic (p :: c) =>
      let path := (toSkiaPath fx fy (p :: c)).getD []
      if p.ptype = .move then mSkPathsLoop fx fy (op ++ path) cl rest else mSkPathsLoop fx fy op (cl ++ path) rest
    | _ => .panic

/-- src/glif/mfek/mod.rs 137-173 -/
def MOutline.toSkiaPaths (fx fy : F32 → F32) (o : MOutline PD) : Out MfekErr (Option (List SkEl) × Option (List SkEl)) := do
  let r ← mSkPathsLoop fx fy [] [] o
  .ok (skNonempty r.1, skNonempty r.2)

/-- src/point/conv/skia.rs 11-15 -/
def SkPoint.toKurbo (p : SkPoint) : F64 × F64 := (p.1.to64, p.2.to64)

/-- src/point/conv/skia.rs 17-27 -/
def skOfKurbo (p : F64 × F64) : SkPoint := (p.1.to32, p.2.to32)

/-- src/matrix/skia.rs 18-22.  `Matrix::from_affine` takes the coefficients in the order of `as_coeffs`. -/
def Affine.toSkia (m : Affine) : Aff F32 :=
  { a := m.a.to32, b := m.b.to32, c := m.c.to32, d := m.d.to32, e := m.e.to32, f := m.f.to32 }

/-- src/matrix/skia.rs 11-16 -/
def Mat6.toSkia (m : Mat6) : Aff F32 := m.affine.toSkia

/-- src/image.rs 146-154.  `From<f64>` of `IntegerOrFloat` is assumed to be `Float(f as f32)`. -/
def GlifImage.setMatrix (i : GlifImage) (m : Affine) : GlifImage :=
  { i with m := { xScale := .float m.a.to32, xyScale := .float m.b.to32, yxScale := .float m.c.to32,
                  yScale := .float m.d.to32, xOffset := .float m.e.to32, yOffset := .float m.f.to32 } }

end GP
