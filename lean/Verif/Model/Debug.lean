import Mathlib.Data.List.Dedup
import Verif.Model.Glif
import Verif.Model.Skia
/-!
# Debug builds

The functions that have a `debug_assert!`, with the assertions on.  Everywhere else in the model they are off, as in a
release build.  Not here: `check_ptype` (src/point.rs 255-262), whose only caller, src/outline/skia/from.rs 259, passes
`Line` or `Curve`; and the assertion about what Skia's `convert_conic_to_quads` returns (src/outline/skia/from.rs 108),
which is a parameter of the model.
-/
open Fl
namespace GP
variable {PD D : Type}

/-- `debug_assert!` -/
def Out.debugAssert {ε : Type} (b : Bool) : Out ε Unit := if b then .ok () else .panic

/-! ## Writing -/

/-- src/outline/conv.rs 34-53, assertions at 36, 49 and 52.  A `HashSet` has as many elements as the list that was
collected has different ones. -/
def cleanupOffcurvesDebug (contour : List GlifPoint) : R (List GlifPoint) := do
  let types := contour.zipIdx.filterMap fun (gp, i) =>
    if gp.ptype ≠ .offcurve then some (i, gp.ptype) else none
  Out.debugAssert (types.all fun (_, t) => t.isValidOncurve)
  let keeps ← Out.mapM' (fun (i, pt) => keepFor i pt) types
  let keepIndices : List Nat := keeps.flatten.filterMap fun i => if 0 ≤ i then some i.toNat else none
  let keep := (List.range contour.length).map fun i => keepIndices.contains i
  Out.debugAssert (contour.length == keep.length)
  let retained := (contour.zipIdx.filter fun (_, i) => keepIndices.contains i).map Prod.fst
  Out.debugAssert (retained.length == keepIndices.dedup.length)
  .ok retained

/-- src/outline/conv.rs 55-73, assertions at 63 and 66 -/
def intoGlifpointsDebug (c : Contour PD) : R GlifContour :=
  if c.isEmpty then .panic else do
  let on := c.map GlifPoint.ofPoint
  let nextHandles := rotR (c.map fun p => GlifPoint.fromHandle p .A)
  let prevHandles := c.map fun p => GlifPoint.fromHandle p .B
  Out.debugAssert (on.length == nextHandles.length && nextHandles.length == prevHandles.length)
  let glifpoints := interleave nextHandles prevHandles on
  Out.debugAssert ([nextHandles, prevHandles, on].all fun d => (d.drop c.length).isEmpty)
  let glifpoints ← cleanupOffcurvesDebug glifpoints
  rotateLoop glifpoints.length glifpoints

/-- src/point/xml.rs 6-25, assertion at 21 -/
def pointXmlDebug (p : GlifPoint) : R Element := do
  if p.smooth then Out.debugAssert (p.ptype != .offcurve)
  .ok (pointXml p)

/-- src/outline/contour/xml.rs 7-25 -/
def contourXmlDebug (c : Contour PD) : R Element := do
  let gc ← intoGlifpointsDebug c
  let ps ← Out.mapM' pointXmlDebug gc
  .ok { name := "contour", children := ps.map Element.node }

/-- src/outline/xml.rs 8-16 -/
def outlineXmlDebug (o : Outline PD) : R Element := do
  let cs ← Out.mapM' contourXmlDebug o
  .ok { name := "outline", children := cs.map Element.node }

/-- src/glif/write.rs 45-119 -/
def glifXmlDebug (pio : PlistIO D) (g : Glif PD D) : R Element := do
  let glyph := (({ name := "glyph" } : Element).set "name" g.name).set "format" "2".toList
  let advance := match g.width with
    | some w => [(advanceXml w).node]
    | none => []
  let unicode := g.unicode.map fun c => (unicodeXml c).node
  let anchors := g.anchors.map fun a => (anchorXml a).node
  let outline ← match g.outline with
    | some o => outlineXmlDebug o
    | none => .ok ({ name := "outline" } : Element)
  let outline := { outline with children := outline.children ++ g.components.vec.map fun c => (componentXml c).node }
  let outlines := if 1 ≤ outline.children.length then [outline.node] else []
  let images := g.images.map fun i => (imageXml i).node
  let guidelines := g.guidelines.map fun l => (guidelineXml l).node
  let note := match g.note with
    | some n => [(noteXml n).node]
    | none => []
  let lib := match libXml pio g.lib with
    | some e => [e.node]
    | none => []
  .ok { glyph with children := advance ++ unicode ++ anchors ++ outlines ++ images ++ guidelines ++ note ++ lib }

/-! ## Reversal -/

/-- src/outline/contour/reverse.rs 17-67, assertions at 62 and 63 (not reached by single points, which return at 58) -/
def toReversedDebug (c : Contour PD) : R (Contour PD) := do
  let newC ← toReversed c
  match c with
  | p :: _ :: _ =>
    if p.ptype = .move then do
      let first ← Out.unwrap newC.head?
      Out.debugAssert (first.b == .colocated)
      let last ← Out.unwrap newC.getLast?
      Out.debugAssert (last.a == .colocated)
      .ok newC
    else .ok newC
  | _ => .ok newC

/-! ## Skia paths -/

/-- The loop src/outline/skia/from.rs 52-78, assertion at 74 (`skcontour[0]` panics if there is none). -/
def skSplitDebug : List (List SkPt) → List SkPt → List SkVerb → R (List (List SkPt))
  | o, c, [] => .ok (if c.isEmpty then o else o ++ [c])
  | o, c, v :: rest =>
    match v.pt with
    | some p =>
      if p.ptype = .move then skSplitDebug (if c.isEmpty then o else o ++ [c]) [p] rest
      else skSplitDebug o (c ++ [p]) rest
    | none =>
      match c with
      | [] => .panic
      | first :: c' => if first.ptype = .move then skSplitDebug o c' rest else .panic

/-- src/outline/skia/from.rs 92-151 for one element, assertion at 100 -/
def conicToCubicDebug (conic : ConicToQuads) (p : SkPt) : R (List SkPt) := do
  if p.weight.isSome then Out.debugAssert (p.points.length == 3)
  conicToCubic conic p

/-- src/outline/skia/from.rs 174-233 for one contour, assertion at 181.  (All the points are looked at before the first
is converted; in the code each is looked at when its turn comes, which can only tell panics apart.) -/
def fromSkContourDebug (skc : List SkPt) : R (Contour PD) := do
  Out.debugAssert (skc.all fun p => p.weight.all fun w => !w.isFinite)
  fromSkContour skc

/-- src/outline/skia/from.rs 156-160 and 166-237 -/
def outlineFromSkiaDebug (conic : ConicToQuads) (path : List SkEl) : R (Outline PD) := do
  let o ← skSplitDebug [] [] (skIter (Flt.zero, Flt.zero) (Flt.zero, Flt.zero) path)
  let o ← Out.mapM' (fun c => do
    let l ← Out.mapM' (conicToCubicDebug conic) c
    .ok l.flatten) o
  Out.mapM' fromSkContourDebug o

/-! ## Names of handles -/

/-- `char::is_whitespace`: the Unicode property `White_Space` -/
def unicodeWhite (c : Char) : Bool :=
  let n := c.toNat
  (9 ≤ n && n ≤ 13) || n == 32 || n == 0x85 || n == 0xA0 || n == 0x1680 || (0x2000 ≤ n && n ≤ 0x200A) || n == 0x2028 ||
    n == 0x2029 || n == 0x202F || n == 0x205F || n == 0x3000

/-- `str::trim` -/
def trimWhite (s : Str) : Str := ((s.dropWhile unicodeWhite).reverse.dropWhile unicodeWhite).reverse

/-- `WhichHandle::from_str` (src/point.rs 290-296) in a release build; `none` is `Err(())`. -/
def WhichHandle.fromStr (s : Str) : Option WhichHandle := (trimWhite s).head?.map WhichHandle.ofChar

/-- src/point.rs 298-309, assertion at 304 -/
def WhichHandle.ofCharDebug (c : Char) : R WhichHandle := do
  if WhichHandle.ofChar c = .neither then Out.debugAssert (c == Char.ofNat 0)
  .ok (WhichHandle.ofChar c)

/-- src/point.rs 290-296, assertion at 293 -/
def WhichHandle.fromStrDebug (s : Str) : R (Option WhichHandle) := do
  Out.debugAssert (s.length == 1)
  match (trimWhite s).head? with
  | some c => do
    let w ← WhichHandle.ofCharDebug c
    .ok (some w)
  | none => .ok none

end GP
