import Verif.Props.ReadContour
import Verif.Props.Index
import Verif.Props.Reverse
import Verif.Props.ReverseExact
import Verif.Props.Refigure
import Verif.Props.Numbers
import Verif.Props.Strings
import Verif.Props.Text
import Verif.Props.File
import Verif.Props.FileContours
import Verif.Props.Resave
import Verif.Props.ResaveExact
import Verif.Props.Matrix
import Verif.Props.Component
import Verif.Props.ComponentExact
import Verif.Props.Flatten
import Verif.Props.PenOps
import Verif.Props.Skia
import Verif.Props.SkiaExact
import Verif.Props.StringsExact
import Verif.Props.LayerExact
import Verif.Props.FlattenRect
import Verif.Props.FlattenRectExact
import Verif.Props.SkiaOpen
import Verif.Props.SkiaPath
import Verif.Props.Image
import Verif.Props.Mfek
import Verif.Props.MfekEdit
import Verif.Props.MfekOpen
import Verif.Props.MfekPoint
import Verif.Props.Layer
import Verif.Props.PenOpsExact
import Verif.Props.PenOpsValid
import Verif.Props.MfekSkia
import Verif.Props.Convert
import Verif.Props.Decimal
import Verif.Spec.Pedantry
import Verif.Props.Pedantry
import Verif.Model.Files
import Verif.Spec.Files
import Verif.Props.Files
import Verif.Props.FilesFont
import Verif.Spec.Read
import Verif.Props.Read
import Verif.Props.ReadPoints
import Verif.Spec.Format
import Verif.Lemmas.Format
import Verif.Props.Format
import Verif.Props.FormatRead
import Verif.Float.Error
import Verif.Spec.Accuracy
import Verif.Lemmas.Accuracy
import Verif.Props.Accuracy
import Verif.Spec.Edit
import Verif.Props.Edit
import Verif.Spec.Write
import Verif.Props.Write
import Verif.Model.Debug
import Verif.Spec.Debug
import Verif.Props.Debug
import Verif.Model.XmlText
import Verif.Spec.XmlText
import Verif.Lemmas.XmlText
import Verif.Props.XmlText
import Verif.Spec.Shortest
import Verif.Float.Shortest
import Verif.Lemmas.Usual
import Verif.Props.Shortest
import Verif.Props.ShortestFile
import Verif.Spec.Ieee
import Verif.Props.Ieee
import Verif.Spec.Serde
import Verif.Lemmas.Serde
import Verif.Props.Serde
import Verif.Props.SerdeAccept
import Verif.Spec.Faults
import Verif.Lemmas.Faults
import Verif.Props.Faults
import Verif.Spec.Smooth
import Verif.Float.Root
import Verif.Lemmas.Smooth
import Verif.Props.Smooth
import Verif.Spec.Chain
import Verif.Props.Chain
import Verif.Spec.KurboDraw
import Verif.Props.KurboDraw
import Verif.Props.MfekReverse
import Verif.Props.SkiaDraw
import Verif.Props.SkiaStrokes
import Verif.Props.SkiaFile
import Verif.Props.SkiaSaved
import Verif.Props.FlattenDraw
import Verif.Props.DocumentDraw
import Verif.Props.Message
import Verif.Spec.KurboPath
import Verif.Props.KurboPath
import Verif.Props.KurboLine
import Verif.Props.KurboTrip
import Verif.Props.KurboTripExact
import Verif.Props.Split
import Verif.Props.MfekFlatten
import Verif.Props.FlattenSaved
import Verif.Props.Coefficients
import Verif.Props.New
import Verif.Props.ReverseOutline
import Verif.Props.MfekName
import Verif.Props.PointLike
import Verif.Props.Refers
import Verif.Props.Plist
import Verif.Props.XmlControl
import Verif.Props.RectDraw
import Verif.Props.EditDraw
import Verif.Props.Undo
import Verif.Props.Moved
import Verif.Lemmas.Unsigned
import Verif.Spec.FontDraw
import Verif.Props.FontDraw
import Verif.Spec.Locality
import Verif.Props.Locality
import Verif.Spec.Parts
import Verif.Props.Parts
import Verif.Spec.Renaming
import Verif.Props.Renaming
import Verif.Spec.Settling
import Verif.Props.Settling
import Verif.Spec.PointData
import Verif.Props.PointData
import Verif.Spec.Valid
import Verif.Props.Valid
import Verif.Spec.Spelling
import Verif.Props.Spelling
import Verif.Props.Grammar
import Verif.Spec.Spoken
import Verif.Props.Spoken
import Verif.Spec.PlistSpoken
import Verif.Props.PlistSpoken
import Verif.Spec.LibFile
import Verif.Props.LibFile
import Verif.Spec.Reopen
import Verif.Props.Reopen
import Verif.Spec.FormatFile
import Verif.Props.FormatExact
import Verif.Props.FormatFile
import Verif.Spec.Rewriting
import Verif.Props.Rewriting
import Verif.Props.FaultFiles
import Verif.Props.ValidQuadratic
import Verif.Spec.EditorSave
import Verif.Props.EditorSave
import Verif.Spec.DocParts
import Verif.Props.DocParts
import Verif.Spec.SaveParts
import Verif.Props.SaveParts
import Verif.Spec.StartPoint
import Verif.Props.StartPoint
import Verif.Spec.Backwards
import Verif.Props.Backwards
import Verif.Props.TurnedTypes
