import Verif.Basic
/-!
# Errors (src/error.rs 22-73)
-/
namespace GP

/-- src/point.rs 49-63 -/
inductive PointType where
  | undefined | move | curve | qcurve | qclose | line | offcurve
  deriving DecidableEq, Repr

/-- src/point.rs 268-270 -/
instance : Inhabited PointType := ⟨.offcurve⟩

/-- src/error.rs 22-73.  Message strings carried by the variants are dropped, except that of
`GlifInputError` (src/glif/read.rs). -/
inductive GErr where
  | fileIo
  | contourHasBadPointType (pi : Nat) (ptype : PointType)
  | filenameNotSet
  | filenameInsane
  | componentsCyclical
  | notUtf8
  | xmlParse
  | pedanticXmlParse
  | xmlWrite
  | input (msg : String)
  | imageNotLoaded
  | imageNotPNG
  | imageNotDecodable
  | imageIo
  | colorNotRGBA
  | typeConversion
  | contourLenOne
  | contourLenZero
  | pointIdxOutOfBounds (idx len : Nat)
  deriving DecidableEq, Repr

/-- Result of a glifparser call. -/
abbrev R (α : Type) := Out GErr α

end GP
