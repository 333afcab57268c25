import Verif.Model.Glif
/-!
# Glyphs as text and in files

src/glif/read.rs 46-77, src/glif/write.rs 13-44, src/glif/conv.rs.
-/
open Fl Fl.Text
namespace GP
variable {PD D : Type}

/-- The crate `xmltree`: printing an element (`write_with_config`; `none` if it fails) and parsing a text
(`Element::parse`). -/
structure XmlIO where
  print : Element → Option Str
  parse : Str → Option Element

/-- src/glif/read.rs 74-75: parsing, then reading. -/
def readText (mid : IOF → IOF → IOF) (pio : PlistIO D) (xml : XmlIO) (ped : Pedantry) (s : Str) : R (Glif PD D) := do
  let root ← Out.ofOption .xmlParse (xml.parse s)
  readGlif mid pio ped root

/-- src/glif/write.rs 25-44.  The bytes that `xmltree` writes are UTF-8, so the text is taken from it
directly. -/
def writeText (pio : PlistIO D) (xml : XmlIO) (g : Glif PD D) : R Str := do
  let e ← glifXml pio g
  Out.ofOption .xmlWrite (xml.print e)

/-- `expect` -/
def expectOk {α : Type} : R α → R α
  | .ok a => .ok a
  | _ => .panic

/-- src/glif/conv.rs 6-10; `read_ufo_glif` (src/glif/read.rs 70-72) reads with the default pedantry. -/
def glifFromText (mid : IOF → IOF → IOF) (pio : PlistIO D) (xml : XmlIO) (s : Str) : R (Glif PD D) :=
  expectOk (readText mid pio xml {} s)

/-- src/glif/conv.rs 18-22; likewise 12-16 for the bytes of the text. -/
def glifIntoText (pio : PlistIO D) (xml : XmlIO) (g : Glif PD D) : R Str := expectOk (writeText pio xml g)

/-- Files of text.  `place` says what file a path leads to; on a file system that ignores case,
different paths lead to the same file. -/
structure Disk where
  place : Path → Path
  text : Path → Option Str
  writable : Path → Bool

/-- `fs::read_to_string` -/
def Disk.read (d : Disk) (f : Path) : Option Str := d.text (d.place f)

/-- `fs::write` on a file that can be written -/
def Disk.write (d : Disk) (f : Path) (s : Str) : Disk :=
  { d with text := fun p => if p = d.place f then some s else d.text p }

/-- The files as `readFromFilename` sees them. -/
def Disk.files (d : Disk) (xml : XmlIO) : Files := fun f => (d.read f).map xml.parse

/-- src/glif/read.rs 50-66 -/
def readFile (mid : IOF → IOF → IOF) (pio : PlistIO D) (xml : XmlIO) (d : Disk) (ped : Pedantry) (f : Path) : R (Glif PD D) :=
  readFromFilename mid pio (d.files xml) ped f

/-- src/glif/write.rs 13-23.  What is left of a file that could not be written is not modelled. -/
def writeFile (pio : PlistIO D) (xml : XmlIO) (g : Glif PD D) (f : Path) (d : Disk) : R Disk := do
  let s ← writeText pio xml g
  if d.writable f then .ok (d.write f s) else .err .xmlWrite

/-- What a caller does to save a font: each glyph to the file named after it (src/glif.rs 76-78) in a
directory. -/
def writeFont (pio : PlistIO D) (xml : XmlIO) (dir : Path) : List (Glif PD D) → Disk → R Disk
  | [], d => .ok d
  | g :: gs, d => do
    let d ← writeFile pio xml g (dir.push (Path.ofStr (nameToFilename g.name true))) d
    writeFont pio xml dir gs d

end GP
