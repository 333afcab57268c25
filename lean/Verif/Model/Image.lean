import Verif.Model.Matrix
/-!
# Images (src/image.rs)

Reading a file and decoding an image are calls into the standard library and the `image` crate; their
outcomes are parameters.
-/
open Fl
namespace GP
variable {PD D : Type}

/-- src/image.rs 22-33 -/
inductive LoadState where
  | notTried | triedAndFailed | loaded | loadedDecodeFailed | decoded
  deriving DecidableEq, Repr

/-- Pixels (RGBA8888), width, height; src/image.rs 38-39 -/
structure Bitmap where
  pixels : List UInt8
  width : Nat
  height : Nat
  deriving DecidableEq, Repr

/-- src/image.rs 36-40 -/
inductive DataOrBitmap where
  | data (d : List UInt8)
  | bitmap (b : Bitmap)
  deriving DecidableEq, Repr

/-- src/image.rs 43-48 -/
def DataOrBitmap.unwrapData : DataOrBitmap → R (List UInt8)
  | .data d => .ok d
  | .bitmap _ => .panic

/-- src/image.rs 109-118 -/
inductive ImageCodec where
  | unknown | png | jpeg | tiff | gif | webp | bmp
  deriving DecidableEq, Repr

/-- src/image.rs 66-75, of the first chunk of up to 12 bytes -/
def codecOf (chunk : List UInt8) : ImageCodec :=
  match chunk with
  | [0x42, 0x4D, _, _, _, _, _, _, _, _, _, _] => .bmp
  | [0xFF, 0xD8, _, _, _, _, _, _, _, _, _, _] => .jpeg
  | [0x89, 0x50, 0x4E, 0x47, _, _, _, _, _, _, _, _] => .png
  | [0x47, 0x49, 0x46, 0x38, _, _, _, _, _, _, _, _] => .gif
  | [0x49, 0x49, 0x2A, 0x00, _, _, _, _, _, _, _, _] => .tiff
  | [0x4D, 0x4D, 0x00, 0x2A, _, _, _, _, _, _, _, _] => .tiff
  | [0x52, 0x49, 0x46, 0x46, _, _, _, _, 0x57, 0x45, 0x42, 0x50] => .webp
  | _ => .unknown

/-- src/image.rs 65-82; the warning is left out.  (`chunks(12).next()` of an empty list is `None`, which
is `Unknown`, too.) -/
def DataOrBitmap.guessCodec (d : DataOrBitmap) : R ImageCodec := do
  let bytes ← d.unwrapData
  .ok (codecOf (bytes.take 12))

/-- src/image.rs 100-106 with 52-55 -/
structure Image where
  filename : Path
  data : DataOrBitmap
  state : LoadState
  codec : ImageCodec
  matrix : Affine
  color : Option Color
  deriving DecidableEq

/-- src/image.rs 180-188 and 58-63 -/
def Image.new : Image :=
  { filename := {}, data := .data [], state := .notTried, codec := .unknown, matrix := Affine.identity, color := none }

/-- src/image.rs 190-198.  `read` is the outcome of `fs::read`. -/
def Image.load (read : Option (List UInt8)) (i : Image) : R Unit × Image :=
  match read with
  | none => (.err .imageIo, { i with state := .triedAndFailed })
  | some bytes =>
    let i := { i with data := .data bytes }
    match i.data.guessCodec with
    | .ok codec => (.ok (), { i with codec := codec, state := .loaded })
    | .err e => (.err e, i)
    | .panic => (.panic, i)

/-- src/image.rs 200-207.  (`unimplemented!()` panics.) -/
def Image.rawData (i : Image) : R (List UInt8) :=
  match i.state with
  | .notTried => .err .imageNotLoaded
  | .triedAndFailed => .err .imageIo
  | .loaded => i.data.unwrapData
  | _ => .panic

/-- The `image` crate: guessing the format (which may fail; otherwise whether it is PNG), decoding to a
RGBA bitmap, and decoding to a grey one (src/image.rs 216, 222 with 237, 222 with 229); and the product of a byte and a number of the
crate `integer_or_float`, as a byte (231-234). -/
structure ImageLib where
  guess : List UInt8 → Option Bool
  decode : List UInt8 → Option Bitmap
  grey : List UInt8 → Bitmap
  scale : UInt8 → IOF → UInt8

/-- The loop src/image.rs 230-235.  `none` is the panic at a chunk of less than four bytes. -/
def tintPixels (scale : UInt8 → IOF → UInt8) (c : Color) : List UInt8 → Option (List UInt8)
  | r :: g :: b :: a :: l => (tintPixels scale c l).map fun l => scale r c.r :: scale g c.g :: scale b c.b :: scale a c.a :: l
  | [] => some []
  | _ => none

/-- src/image.rs 229-235 with 240 -/
def ImageLib.tint (lib : ImageLib) (c : Color) (raw : List UInt8) : Option Bitmap :=
  let g := lib.grey raw
  (tintPixels lib.scale c g.pixels).map fun p => { g with pixels := p }

/-- src/image.rs 211-243; `more` is the feature `more-image-formats`. -/
def Image.decode (lib : ImageLib) (more : Bool) (i : Image) : R Unit × Image :=
  match i.data with
  | .bitmap _ => (.err .imageIo, i)
  | .data raw =>
    match lib.guess raw with
    | none => (.err .imageIo, i)
    | some isPng =>
      if !more && !isPng then (.err .imageNotPNG, { i with state := .loadedDecodeFailed }) else
      match lib.decode raw with
      | none => (.err .imageNotDecodable, { i with state := .loadedDecodeFailed })
      | some b =>
        let b := match i.color with
          | some c => lib.tint c raw
          | none => some b
        match b with
        | some b => (.ok (), { i with data := .bitmap b, state := .decoded })
        | none => (.panic, i)

/-- `Path::parent` -/
def Path.parent (p : Path) : Option Path :=
  if p.parts.isEmpty then none else some { p with parts := p.parts.dropLast }

/-- src/image.rs 160-163: where the image of the glyph in `glif` is. -/
def GlifImage.file (i : GlifImage) (glif : Option Path) : R Path := do
  let f ← Out.ofOption .filenameNotSet glif
  let dir ← Out.ofOption .filenameInsane f.parent
  .ok (((dir.push (Path.ofStr "..".toList)).push (Path.ofStr "images".toList)).push (Path.ofStr i.filename))

/-- src/image.rs 158-169; `fs` is the file system. -/
def GlifImage.toImageOf (fs : Path → Option (List UInt8)) (i : GlifImage) (glif : Option Path) : R Image := do
  let file ← i.file glif
  match Image.load (fs file) { Image.new with filename := file } with
  | (.ok (), img) => .ok { img with matrix := i.m.affine, color := i.color }
  | (.err e, _) => .err e
  | (.panic, _) => .panic

/-- src/image.rs 173-178 -/
def Image.fromFilename (fs : Path → Option (List UInt8)) (file : Path) : R Image :=
  match Image.load (fs file) { Image.new with filename := file } with
  | (.ok (), img) => .ok img
  | (.err e, _) => .err e
  | (.panic, _) => .panic

end GP
