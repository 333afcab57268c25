import Verif.Model.Mfek
import Verif.Model.Strings
import Verif.Float.Text
/-!
# Messages of errors (src/error.rs 22-152, src/error/mfek.rs 8-29, src/error/string.rs)
-/
open Fl Fl.Text
namespace GP

/-- The types that texts are converted to: src/glif/mfek/contour_operations/vws.rs 114, 150, 178. -/
inductive ReqType where
  | joinType | capType | interpolationType
  deriving DecidableEq

def ReqType.name : ReqType → Str
  | .joinType => "JoinType".toList
  | .capType => "CapType".toList
  | .interpolationType => "InterpolationType".toList

/-- src/error.rs 22-73, with everything the variants carry.  `IO` is `io::Error`; the `&'static str` of
`TypeConversionError` is one of those in the library. -/
inductive Problem (IO : Type) where
  | glifFileIo (e : Option IO)
  | outlineHasBadPointType (ci pi : Nat) (ptype : PointType)
  | contourHasBadPointType (pi : Nat) (ptype : PointType)
  | filenameNotSet (s : Str)
  | filenameInsane (s : Str)
  | componentsCyclical (s : Str)
  | libError
  | notUtf8
  | xmlParse (s : Str)
  | pedanticXmlParse (s : Str)
  | xmlWrite (s : Str)
  | glifInput (s : Str)
  | imageNotLoaded
  | imageNotPNG
  | imageNotDecodable
  | imageIo (e : Option IO)
  | colorNotRGBA
  | typeConversion (reqType : ReqType) (reqVariant : Str)
  | contourLenOne
  | contourLenZero
  | pointIdxOutOfBounds (idx len : Nat)
  | contourNoPrevious (len : Nat)
  | contourNoNext (len : Nat)
  deriving DecidableEq

/-- The derived `Debug` of `PointType`: src/point.rs 48-63. -/
def PointType.debug : PointType → Str
  | .undefined => "Undefined".toList
  | .move => "Move".toList
  | .curve => "Curve".toList
  | .qcurve => "QCurve".toList
  | .qclose => "QClose".toList
  | .line => "Line".toList
  | .offcurve => "OffCurve".toList

variable {IO : Type}

/-- src/error.rs 75-152.  How an `Option<Rc<io::Error>>` is printed by `{:?}` is a parameter. -/
def Problem.display (debug : Option IO → Str) (e : Problem IO) : Str :=
  "glifparser error: ".toList ++ match e with
  | .glifFileIo ioe => "System error when loading glif file: ".toList ++ debug ioe
  | .outlineHasBadPointType ci pi t =>
    "Bad point type ".toList ++ t.debug ++ " in outline @(".toList ++ toDigits 10 ci ++ ", ".toList ++ toDigits 10 pi ++ "))".toList
  | .contourHasBadPointType pi t => "Bad point type ".toList ++ t.debug ++ " in contour @".toList ++ toDigits 10 pi ++ ")".toList
  | .filenameNotSet s => "Glyph filename not set: ".toList ++ s
  | .filenameInsane s => "Glyph filename not sane: ".toList ++ s
  | .notUtf8 => "Glyph not utf-8".toList
  | .componentsCyclical s => "Glyph components are cyclical: ".toList ++ s
  | .libError => "Glif <lib> invalid".toList
  | .xmlParse s => "XML error: ".toList ++ s
  | .xmlWrite s => "XML error: ".toList ++ s
  | .pedanticXmlParse s => "XML error (requested pedantry, would not normally be an error): ".toList ++ s
  | .glifInput s => "Glif format spec error: ".toList ++ s
  | .imageNotLoaded => "Tried to access data for image whose data hasn't been loaded".toList
  | .imageNotPNG =>
    "Image not formatted as PNG. The glif file format only supports PNG. If you want to support other types, you have to work on the data yourself.".toList
  | .imageNotDecodable => "Image not decodable".toList
  | .imageIo ioe => "System error when loading image: ".toList ++ debug ioe
  | .colorNotRGBA => "Color not RGBA".toList
  | .typeConversion t v => "Type conversion error: ".toList ++ v ++ " not in ".toList ++ t.name
  | .pointIdxOutOfBounds idx len =>
    "The point index ".toList ++ toDigits 10 idx ++ " is out of bounds as self.len() == ".toList ++ toDigits 10 len
  | .contourLenOne => "On a contour of length one, there's no previous/next point".toList
  | .contourLenZero => "On an empty invalid contour (len == 0), there's no previous/next point".toList
  | .contourNoPrevious len => "Asked for previous index of 0 on an open contour (len ".toList ++ toDigits 10 len ++ ")".toList
  | .contourNoNext len => "Asked for next index of last point, ".toList ++ toDigits 10 len ++ ", on an open contour".toList

/-- src/error/mfek.rs 17-30 -/
def OpsErr.display (e : OpsErr) : Str :=
  let (over, under) := match e with
    | .moreContoursThanOps => ("contours in outline".toList, "contour operations in list".toList)
    | .moreOpsThanContours => ("contour operations in list".toList, "contours in outline".toList)
    | .moreLayersThanVecOps => ("layers in glyph".toList, "lists of contour operations in list".toList)
    | .moreVecOpsThanLayers => ("lists of contour operations in list".toList, "layers in glyph".toList)
  "Mismatch while upgrading contour ops: more ".toList ++ over ++ " than ".toList ++ under ++ "!".toList

/-- `{:?}` of a control character (`char::escape_debug`).  Simplified: other characters, which the errors never carry,
are printed as control characters are. -/
def controlDebug (c : Char) : Str :=
  if c.toNat = 0 then "'\\0'".toList
  else if c = '\t' then "'\\t'".toList
  else if c = '\r' then "'\\r'".toList
  else if c = '\n' then "'\\n'".toList
  else "'\\u{".toList ++ (toDigits 16 c.toNat).map Char.toLower ++ "}'".toList

/-- src/error/string.rs 1-10 -/
def StrErr.display : StrErr → Str
  | .hasControlCharacter idx c =>
    "String has control character `".toList ++ controlDebug c ++ "` at position ".toList ++ toDigits 10 idx
  | .lenZero => "String is zero-length".toList

end GP
