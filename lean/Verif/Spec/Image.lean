import Verif.Model.Image
/-!
# Histories of an image
-/
open Fl
namespace GP.Spec

/-- Calls on an image, with their outcomes outside the program. -/
inductive ImageCall where
  | load (read : Option (List UInt8))
  | decode (lib : ImageLib) (more : Bool)

/-- One call. -/
def ImageCall.run : ImageCall → Image → R Unit × Image
  | .load read, i => i.load read
  | .decode lib more, i => i.decode lib more

/-- The image after a history of calls. -/
def after (i : Image) (calls : List ImageCall) : Image := calls.foldl (fun i c => (c.run i).2) i

/-- State and stored data agree. -/
def Agrees (i : Image) : Prop :=
  match i.state with
  | .notTried => i.data = .data []
  | .triedAndFailed => True
  | .loaded => ∃ d, i.data = .data d
  | .loadedDecodeFailed => ∃ d, i.data = .data d
  | .decoded => ∃ b, i.data = .bitmap b

/-- Bitmaps have four bytes for each pixel, and the grey bitmap of a picture has the size of its other one. -/
def ImageSound (lib : ImageLib) : Prop :=
  ∀ d b, lib.decode d = some b → b.pixels.length = 4 * (b.width * b.height) ∧
    (lib.grey d).width = b.width ∧ (lib.grey d).height = b.height ∧ (lib.grey d).pixels.length = 4 * (b.width * b.height)

/-- The crate that decodes is sound. -/
def ImageCall.Sound : ImageCall → Prop
  | .load _ => True
  | .decode lib _ => ImageSound lib

/-- A bitmap is another multiplied with a colour, channel by channel. -/
def TimesColor (scale : UInt8 → IOF → UInt8) (c : Color) (g t : Bitmap) : Prop :=
  t.width = g.width ∧ t.height = g.height ∧ t.pixels.length = g.pixels.length ∧
  ∀ k, t.pixels[4 * k]? = g.pixels[4 * k]?.map (scale · c.r) ∧ t.pixels[4 * k + 1]? = g.pixels[4 * k + 1]?.map (scale · c.g) ∧
    t.pixels[4 * k + 2]? = g.pixels[4 * k + 2]?.map (scale · c.b) ∧ t.pixels[4 * k + 3]? = g.pixels[4 * k + 3]?.map (scale · c.a)

/-- A name of a file in a directory: not empty, no slash, not one of the two special names. -/
def PlainName (s : Str) : Prop := s ≠ [] ∧ '/' ∉ s ∧ s ≠ ".".toList ∧ s ≠ "..".toList

/-- One part of a path followed, without looking at the file system. -/
def resolveStep (l : List Str) (s : Str) : List Str :=
  if s = "..".toList then
    match l.getLast? with
    | some t => if t = "..".toList then l ++ [s] else l.dropLast
    | none => [s]
  else l ++ [s]

/-- A path with every `..` followed. -/
def lexical (parts : List Str) : List Str := parts.foldl resolveStep []

/-- The codec of data that begins with a signature; at least twelve bytes are needed. -/
def ToldBySignature (bytes : List UInt8) (c : ImageCodec) : Prop :=
  (c = .png ↔ 12 ≤ bytes.length ∧ [0x89, 0x50, 0x4E, 0x47] <+: bytes) ∧
  (c = .jpeg ↔ 12 ≤ bytes.length ∧ [0xFF, 0xD8] <+: bytes) ∧
  (c = .gif ↔ 12 ≤ bytes.length ∧ [0x47, 0x49, 0x46, 0x38] <+: bytes) ∧
  (c = .bmp ↔ 12 ≤ bytes.length ∧ [0x42, 0x4D] <+: bytes) ∧
  (c = .tiff ↔ 12 ≤ bytes.length ∧ ([0x49, 0x49, 0x2A, 0x00] <+: bytes ∨ [0x4D, 0x4D, 0x00, 0x2A] <+: bytes)) ∧
  (c = .webp ↔ 12 ≤ bytes.length ∧ [0x52, 0x49, 0x46, 0x46] <+: bytes ∧ [0x57, 0x45, 0x42, 0x50] <+: bytes.drop 8)

/-- The path to `images/file` in a directory. -/
def imagePath (dir : Path) (file : Str) : Path := { dir with parts := dir.parts ++ ["images".toList, file] }

/-- A file system without symbolic links: what is read depends only on where a path leads. -/
def ByPlace (fs : Path → Option (List UInt8)) : Prop :=
  ∀ p q : Path, p.abs = q.abs → lexical p.parts = lexical q.parts → fs p = fs q

end GP.Spec
