import Verif.Spec.File
import Verif.Spec.Read
/-!
# What is wrong with a document, in the order of reading
-/
open Fl Fl.Text
namespace GP.Spec

/-- What is required of an attribute: the complaint if it is missing (none if it may be), the texts it may
have, and the complaint about any other text. -/
structure Check where
  attr : String
  missing : Option GErr
  good : Str → Prop
  bad : GErr

/-- The element does not meet the requirement, and this is the complaint. -/
def Check.Fails (c : Check) (e : Element) (x : GErr) : Prop :=
  (e.get c.attr = none ∧ c.missing = some x) ∨ ∃ s, e.get c.attr = some s ∧ ¬ c.good s ∧ x = c.bad

/-- The first complaint. -/
def FirstFault : List (Check × Element) → GErr → Prop
  | [], _ => False
  | (c, e) :: l, x => c.Fails e x ∨ ((¬ ∃ y, c.Fails e y) ∧ FirstFault l x)

/-- The attribute has to be there. -/
def present (k msg : String) : Check := ⟨k, some (.input msg), fun _ => True, .input msg⟩

/-- The attribute has to be there and to be a number. -/
def number (k missing bad : String) : Check := ⟨k, some (.input missing), IsNumber, .input bad⟩

/-- The attribute, if there, has to be as said. -/
def maybe (k : String) (good : Str → Prop) (bad : GErr) : Check := ⟨k, none, good, bad⟩

/-- An integer of 32 bits. -/
def Integer32 (s : Str) : Prop := ∃ i, IntText s i ∧ -(2 ^ 31) ≤ i ∧ i < 2 ^ 31

def colorCheck : Check :=
  maybe "color" (fun s => ∃ a b c d, FourFields s a b c d ∧ IsNumber a ∧ IsNumber b ∧ IsNumber c ∧ IsNumber d)
    .colorNotRGBA

def matrixChecks : List Check :=
  [maybe "xScale" IsNumber (.input "Matrix member xScale not float"),
   maybe "xyScale" IsNumber (.input "Matrix member xyScale not float"),
   maybe "yxScale" IsNumber (.input "Matrix member yxScale not float"),
   maybe "yScale" IsNumber (.input "Matrix member yScale not float"),
   maybe "xOffset" IsNumber (.input "Matrix member xOffset not float"),
   maybe "yOffset" IsNumber (.input "Matrix member yOffset not float")]

def rootChecks : List Check :=
  [⟨"format", some (.input "no format in <glyph>"), (· = "2".toList), .input "<glyph> format not 2"⟩,
   present "name" "<glyph> has no name"]

def advanceChecks (ped : Pedantry) : List Check :=
  [⟨"width", some (.input "<advance> has no width"),
      fun w => (∃ n, Signed 10 w n ∧ n < 2 ^ 64) ∨ ∃ f : F32, FloatText b32 w f ∧ f.isSubnormal = false,
      .input "<advance> width neither int nor downgradable (not subnormal) float!"⟩,
   maybe "width" (fun w => ¬ Strictest ped ∨ ∃ n, Signed 10 w n ∧ n < 2 ^ 64)
      (.input "Floating point value given as <advance> width — OpenType `hmtx` / `vmtx` will truncate it")]

def unicodeChecks : List Check :=
  [⟨"hex", some (.input "<unicode> has no hex"), fun s => ∃ n, Signed 16 s n ∧ n < 2 ^ 32, .input "<unicode> hex not int"⟩,
   maybe "hex" (fun s => ∃ c : Char, Signed 16 s c.toNat) (.input "<unicode> char conversion failed")]

def anchorChecks (ped : Pedantry) : List Check :=
  [number "x" "<anchor> missing x" "<anchor> x not integer/float",
   number "y" "<anchor> missing y" "<anchor> y not integer/float",
   maybe "x" (fun s => ped.mend = .always ∨ Integer32 s) .pedanticXmlParse,
   maybe "y" (fun s => ped.mend = .always ∨ Integer32 s) .pedanticXmlParse]

def imageChecks : List Check := present "fileName" "<image> missing fileName" :: (matrixChecks ++ [colorCheck])

/-- The message about `y` is the one about `x` (src/glif/read.rs 202). -/
def guidelineChecks : List Check :=
  [number "x" "<guideline> missing x" "<guideline> x not float",
   number "y" "<guideline> missing y" "<guideline> x not float",
   number "angle" "<guideline> missing angle" "<guideline> angle not float",
   colorCheck]

def pointChecks : List Check :=
  [number "x" "<point> missing x" "<point> x not float", number "y" "<point> missing y" "<point> y not float"]

def componentChecks : List Check := matrixChecks ++ [present "base" "<component> missing base"]

/-- The requirements on some elements, one element after the other. -/
def each (cs : List Check) (es : List Element) : List (Check × Element) := es.flatMap fun e => cs.map fun c => (c, e)

/-- All that is required of a document, in the order of reading: the root, the first `<advance>`, the
`<unicode>`s, `<anchor>`s, `<image>`s and `<guideline>`s, and of the first `<outline>` the points of its
contours and then its components. -/
def requirements (ped : Pedantry) (root : Element) : List (Check × Element) :=
  each rootChecks [root] ++
  each (advanceChecks ped) (named "advance" root.children).head?.toList ++
  each unicodeChecks (named "unicode" root.children) ++
  each (anchorChecks ped) (named "anchor" root.children) ++
  each imageChecks (named "image" root.children) ++
  each guidelineChecks (named "guideline" root.children) ++
  each pointChecks ((contoursOf root).flatMap fun c => named "point" c.children) ++
  each componentChecks (componentsOf root)

/-- The words of a text. -/
def wordsOf (m : String) : List String := ((m.toList.splitOn ' ').map String.ofList)

/-- The complaint has a message, and `w` is a word of it. -/
def Mentions (x : GErr) (w : String) : Prop := ∃ m, x = .input m ∧ w ∈ wordsOf m

end GP.Spec
