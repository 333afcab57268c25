import Verif.Model.PenOps
/-!
# `PointLike` (src/point/valid.rs, src/point/conv/kurbo.rs)
-/
open Fl
namespace GP
variable {PD : Type}

/-- src/point/valid.rs 60-62, 63-65 -/
def Point.likeX (p : Point PD) : IOF := .ofF32 p.x
def Point.likeY (p : Point PD) : IOF := .ofF32 p.y

/-- src/point/valid.rs 66-68, 69-71 -/
def Point.setX (p : Point PD) (x : IOF) : Point PD := { p with x := x.toF32 }
def Point.setY (p : Point PD) (y : IOF) : Point PD := { p with y := y.toF32 }

/-- src/point/valid.rs 21-25, 59-65; src/point/conv/kurbo.rs 4-8 -/
def Point.kpoint (p : Point PD) : F64 × F64 := (p.likeX.toF64, p.likeY.toF64)

/-- src/point/valid.rs 106-108, 109-111 -/
def GlifPoint.setX (p : GlifPoint) (x : IOF) : GlifPoint := { p with x := x }
def GlifPoint.setY (p : GlifPoint) (y : IOF) : GlifPoint := { p with y := y }

end GP
