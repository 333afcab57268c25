# Formal model of glifparser — design

The source is `/repo` (Rust, MFEK/glifparser.rlib). The model is Lean 4 code under
`lean/Verif/`. Property theorems live in `lean/Verif/Props/*.lean`; the model
lives in `lean/Verif/Model/*.lean`; floating point in `lean/Verif/Float/*.lean`;
independent specifications in `lean/Verif/Spec/*.lean`; supporting lemmas in
`lean/Verif/Lemmas/*.lean`. `Props/Sample.lean` and `Props/SampleFont.lean` hold
concrete glyphs and fonts that the `example`s beside the theorems use.
Build: `cd lean && lake build`.

`properties.jsonl` states the properties in English, `MANIFEST.json` names the
theorems for each. A theorem `Cnn_partial` proves a property on the part of its
domain where it holds; `Cnn_false` proves that the code violates the property as
stated, by a concrete witness; the remaining `Cnn_*` theorems are full parts of the
property or exact descriptions of what the code does instead. Seeded bugs tried
against the theorems are in `seeded/LOG.jsonl`.

## Trusted base

* Lean's kernel. No axioms are declared. Theorems depend on at most
  `propext`, `Classical.choice`, `Quot.sound` (checked with `#print axioms`
  for every theorem in the manifest). No `sorry`, `admit`, `native_decide`,
  `bv_decide`; `decide +kernel` is evaluation by the kernel and adds no axiom.
* The reading of the Rust source as text. Each model definition cites the file
  and lines it models.
* Modelling conventions (below), and the behaviours assumed of code that is not
  in `/repo` (below).

### Conventions

* `Result<T, E>` and panics: `Out α = ok a | err e | panic`. A panic
  (`unwrap`, index out of range, `unreachable!`, `panic!`, `String::remove` off a
  char boundary) is an explicit outcome, never totalised away.
* The model is of a *release* build (`debug_assert!` off). The functions with
  assertions are modelled a second time, with the assertions on, in Model/Debug (C96).
* `&mut self` methods return the new value.
* Strings are lists of Unicode scalar values (`Str = List Char`); byte offsets
  are computed from UTF-8 lengths where the code uses them.
* `usize` is unbounded `Nat` (lists that exceed memory are out of scope).
* `log::*` calls have no effect. Error payload texts are kept only where a
  property talks about them.
* Feature set: `fat-no-skia` (default + mfek + more-image-formats), plus the Skia
  conversions modelled on path verbs.

### Numbers

* `f32`/`f64` are modelled concretely as IEEE-754 binary32/binary64 with one NaN
  (payload and sign of NaN are not observable through this API): sign,
  and the ordinal of the magnitude (i.e. the exponent/mantissa bits as a natural number).
  Rounding is to nearest, ties to even, defined on exact fractions.
  Arithmetic is exact-then-round. That `round` gives the nearest float, the even one of two, is proved in
  `Float/Nearest.lean` (`round_nearest`, `add_nearest`, `mul_nearest`, `div_nearest`, `cast_nearest`, `ofInt_nearest`)
  against a definition by distances.
* `f32::to_string` (Rust `Display`): plain decimal notation of the shortest digit
  string that rounds to the value. `str::parse::<f32>`: the Rust grammar,
  correctly rounded (C79 states the grammar apart from the scanner).
* `IntegerOrFloat` (crate `integer_or_float`, not in `/repo`): modelled as
  `Integer(i32) | Float(f32)`; `From<f32>` gives `Float`; parsing tries `i32`
  then `f32` (no white space around it); printing prints the payload; `f32::from`
  of an integer rounds; `From<f64>` gives `Float(f as f32)`. **Assumed**, since that source is not available.

### External code, not modelled

* `xmltree` (text ↔ element tree). The model of reading and writing starts and ends at the element tree:
  `read` takes an `Element`, `write` returns one. Files and texts (`Model/Files`, C82–C84) are reached through a parameter
  `XmlIO`, a printer and a parser about which nothing is assumed but, where needed, the hypothesis `Prints`: what is
  printed parses to the same document. Assumed: `attributes` is an
  insertion-ordered map; `take_child(n)` removes and returns the first child
  *element* named `n`; `get_text` concatenates text/CDATA children, `None` if
  there are none. Name spaces are ignored. For C97 there is a concrete instance of `XmlIO`
  (`Model/XmlText`): a printer with any layout of white space and a parser, after XML 1.0 and what is known of
  `xmltree` (texts of white space are dropped, comments kept). Its source is not in the sandbox, so that this is a
  model of what the library is **assumed** to do: entities of a document type, encodings, name spaces and CDATA
  merged with text are not in it.
* `plist` (dictionary ↔ element): parameters (`PlistIO`), with the law needed stated
  as a hypothesis. For C127, C141 and C142 there is a concrete instance (`Model/Plist`): the XML format of property
  lists, printed and read through `Model/XmlText`; dates and data stay parameters (`LeafIO`), `Uid` values,
  hexadecimal integers and the document type declaration are left out. For layers, `plist::Value` is a tree of arrays, strings,
  dictionaries and a type parameter for the rest.
* The file system: a function from path to file contents (element trees, or bytes for
  images), with a map from paths to places (`Disk`), so that two paths may be one file, and a set of writable paths. A path is
  a list of parts.
* `kurbo`: `Affine * Point` and `Affine * Affine` are modelled with the formulas of
  that crate over f64; `BezPath` is its list of `PathEl`; `Line::nearest` is a
  parameter (an arbitrary function) in C33 and C57; for C105 it is modelled from memory of the published source
  (`line.rs`, `vec2.rs`: `dot`, `lerp`, the clamped parameter), the crate not being in the sandbox. `f64::sqrt` is the
  correctly rounded root.
* `trees`: `Tree`/`Forest` are rose trees.
* `skia-safe`: a `Path` is the list of calls made on it; its iterator replays them,
  adds the closing line where the last point is not the first, and drops a trailing
  move. `convert_conic_to_quads` is a parameter; C109 assumes that the two quadratics begin
  and end where the conic does (`KeepsEnds`).
* `image`: decoding to RGBA and to grey are parameters (arbitrary functions of the bytes), as is the product of a byte and a
  component of a colour; the tinting loop is modelled.
* `spline`/hyperbeziers, `flo_curves`: not modelled.
* `serde` (feature `glifserde`): what the derives generate is modelled (`Model/Serde`) on serde's data model, after its
  documentation: structures by name or by position, unknown names ignored, duplicates refused, `default`, `Option`,
  `skip_serializing` and `skip_deserializing`. Formats are not modelled; `Spec.Carries` says what they may do.
  Serialisation of `IntegerOrFloat`, `PathBuf`, `plist::Dictionary` and the user's point data are parameters.
* `log`, Debug output: not modelled.

### Source files and what is modelled of them

| source | model | left out |
|--------|-------|----------|
| `anchor.rs`, `anchor/xml.rs` | `Model/Text`, `Model/Glif`, `Model/Xml` | `Anchor::new` defaults beyond `Default` |
| `codepoint.rs`, `color.rs` | `Model/Text`, `Model/Convert`, `Model/Serde` | |
| `component.rs`, `component/xml.rs` | `Model/Component`, `Model/Matrix`, `Model/New` | reading files as text |
| `error.rs`, `error/*` | `Model/Error`, `Model/Message` | the errors of the other models carry no messages but those of `GlifInputError` |
| `glif.rs`, `glif/read.rs`, `glif/write.rs`, `glif/conv.rs`, `glif/xml.rs`, `glif/lib.rs` | `Model/Glif`, `Model/Strings`, `Model/Files` | text ↔ tree (a parameter) |
| `glif/mfek/*` | `Model/Mfek`, `Model/Layer`, `Model/MfekSkia`, `Model/New`, `Model/Serde` | undo (the history is only serialised), hyperbezier solving, `dyn` plumbing |
| `guideline.rs`, `guideline/xml.rs` | `Model/Text`, `Model/Glif`, `Model/Convert` | point data of guidelines |
| `image.rs`, `image/xml.rs` | `Model/Image`, `Model/Glif` | pixel formats |
| `matrix.rs`, `matrix/write.rs`, `matrix/skia.rs` | `Model/Matrix`, `Model/MfekSkia` | |
| `outline.rs`, `outline/contour.rs`, `contour/*` | `Model/Contour`, `Model/Smooth`, `Model/Outline` | |
| `outline/conv.rs`, `conv/penops.rs`, `outline/kurbo.rs`, `quad_to_cubic.rs` | `Model/PenOps` | |
| `outline/create.rs` | `Model/Outline` | |
| `outline/refigure.rs`, `outline/reverse.rs` | `Model/Contour` | |
| `outline/skia/*` | `Model/Skia` | canvas drawing |
| `pedantry.rs` | `Model/Text`, `Model/Glif` | |
| `point.rs`, `point/*` | `Model/Point`, `Model/Contour`, `Model/MfekSkia`, `Model/New`, `Model/PointLike` | `expect_valid` |
| `string.rs`, `string/serde_impl.rs` | `Model/Strings`, `Model/Serde` | |

### Notes on single models

* Recursion through components: `Run α = Option (Out ...)`, `none` if the given depth
  was not enough. C20 proves that a depth that depends only on the font is enough.
* Components name files by `name_to_filename` beside the glyph's file. C20 asks that
  references determine files by name, which holds if no base name has a slash.
* Insertion of a point into an editor contour is done by callers through `inner_mut`
  followed by `insert_op`; the model has it as one step (`Spec.Edit.insert`).
* `MFEKGlif.history` (undo) is not read by any modelled function but serialisation and is left out of `MGlif`;
  `Serde.EditedGlif` has it.

## Per property: what is modelled and how it is proved

| id | modelled | proof |
|----|----------|-------|
| C01 | `Glif::xml` and `read_ufo_glif_pedantic` on element trees | composition of the per-element round trips, induction over each child list |
| C02 | same | normal form is a fixed point of the trip up to rotation; which glyphs have a second save: what is written is always acceptable, so only the types of the points decide |
| C03 | `into_glifpoints`, `cleanup_offcurves`, `cubic_contour` | list induction over the triple structure written per point |
| C04 | same, iterated | C03 plus rotation algebra |
| C05 | `into_glifpoints`, `cleanup_offcurves` | index-set filter = per-point blocks, by induction |
| C06 | whole reader + writer | false of the code (quadratic contour with trailing off-curve): refutation; `_partial` for cubic files |
| C07 | reader | false (cubic-looking contour containing a qcurve point): refutation + exact panic condition |
| C08 | `Into<Outline> for GlifOutline` | false (contour starting off-curve is dropped): refutation + exact drop condition |
| C09, C10 | reader | reader factors through per-name filters |
| C11 | hex printing / `from_str_radix` | induction on digits |
| C12 | `u64`/`f32` parse, `as u64` | digit induction; case analysis |
| C13, C14 | `Color` | split/join lemma; C14 false (extra fields accepted; spaces rejected): refutation + exact acceptance |
| C15, C16 | `GlifString`, UTF-8 offsets | induction; C16 false: exact panic condition |
| C17–C19 | `name_to_filename` | prefix decoding; C18 false (Z, underscore): refutation + `_partial`, exact condition on the name |
| C20, C21 | `build_component_tree` over a finite font | well-founded induction on names not yet on the path |
| C22–C26 | `flattened` over rose trees | C22, C23, C26 false: refutations + `_partial` on the domain where they hold; which points the rectangle of C26 is the smallest around, and exactly when it contains what is drawn |
| C27–C29 | `to_reversed` | list algebra; C29 false for mixed contours, with the exact conditions |
| C30 | `refigure_point_types` as a sequential in-place loop | loop invariant; idempotence false in a corner: refutation, two-pass stability |
| C31–C33 | index helpers, smoothness | arithmetic, case analysis |
| C34–C37 | pen operations and kurbo conversions | list induction; C36, C37 false: refutations + exact conditions |
| C38 | `quad_to_cubic` | polynomial identity over a field (rounding of floats not included: said in the theorem) |
| C39 | `apply_matrix` over IEEE doubles | exactness of `1*x+0*y+0`; product law over exact arithmetic |
| C40–C43 | per-element XML | attribute map lemmas; image colour and non-plist lib are lost: refutations |
| C44 | `Image` as a transition system | invariant by induction over call sequences; `data` after `decode` panics: refutation |
| C45 | layer list merge | list induction |
| C46–C49, C51 | MFEK structures | induction; refutations where handle counts diverge |
| C50 | enum text forms | case analysis; custom names: string lemma |
| C52 | `f32` print/parse | correctness of rounding on printed digits |
| C53 | Skia verbs | list induction |
| C54 | validity check | false: refutation, exact characterisation |
| C55 | `round` on f32 | integrality of rounded values |
| C56 | quadratic contours through the writer and reader | exact description of what is left of them; refutations of the round trip |
| C57 | smoothness of points | case analysis on neighbours; refutation at the ends of closed contours |
| C58 | reader | exact condition for an error |
| C59 | `guess_codec` | case analysis over prefixes of all byte sequences |
| C60 | `to_image_of` | path algebra |
| C61 | the iterator of an editor contour | induction on the steps left |
| C62 | handle access of editor points | case analysis over kinds and handles |
| C63 | `next_point` | arithmetic modulo the length |
| C64 | `to_layercontents_plist` | list induction; refutations for hidden or renamed first layers; exact condition |
| C65 | `to_layerinfo_plist` | from C13 |
| C66 | open contours to Skia verbs and back, `fixup_skia_open_contour` | list induction over the segments |
| C67, C68 | `split_skia_path`, `conics_to_cubics`, `from_skoutline` on paths of any contours, with and without conics | the iterator is described contour by contour; case analysis on how a contour ends; a path with conics is taken to the path with two quadratics for each conic (`C68_conics`, `C68_all`) |
| C69 | `PenOperations::len`, `simplify`, `split_pen_operations` | case analysis; list induction |
| C70 | `is_valid` of pen operations | description of the operations of any contour; false for closed ones: refutation + `_partial`; exactly when each operation is valid (`C70_exact`: clean coordinates, and an open contour for a `MoveTo`) |
| C71 | `to_skia_paths` of editor outlines | the loop against that of C53, list induction |
| C72 | `SkiaPaths::combined`, point transforms | list induction |
| C73 | points and matrices between kurbo, Skia and glif | float casts; `set_matrix` false for coefficients that are not `f32`: exact condition |
| C74 | `PathEl` ↔ `PenOperations` | case analysis; false for curves: exact result, refutation |
| C75, C76 | handles as points, colours as floats | case analysis, float casts |
| C77 | `as_plist_dict` | case analysis; identifiers are lost: refutation |
| C78 | accessors of editor contours | case analysis over kinds |
| C79 | number texts | grammar against the scanner, list induction; `Fmt.round` proved to give the nearest float |
| C80, C81 | pedantry | readers compared field by field; documents that tell pedantries apart; C81 false of points |
| C82, C83 | files and texts | C01 through the printer; induction over the glyphs written |
| C84 | a saved font resolves | C82 + C20: references on disk mapped to references by name |
| C85 | what is read is what the document says | each reader inverted to a relation with the element; relation is functional |
| C86, C87 | points of a contour | file points cut into segments; what waits in the queue after each of them, `C86_exact`; C86 false with three |
| C88 | what is written is of the format | form of each element; contours by a scan over types, rotations as pieces of the list twice; `C88_exact` splits the format in `Formed` and `FiniteWritten` and proves each necessary |
| C89 | documents of the format are read | exact condition from C58/C07; false: vertical guidelines, mixed contours |
| C90 | the format is kept by re-saving | C85–C87 give a fitting glyph, C88; false for numbers beyond f32; `C90_exact`: a document of the format gives a formed glyph, so by C88_exact only the numbers count |
| C91 | applied matrices are accurate | rounding to nearest is off by half a unit in the last place; errors of two products, two sums and a conversion added up in ℚ |
| C92 | moved handles are accurate | sums never underflow; errors of two subtractions |
| C93 | elevated curves are accurate | errors of the inner points; the curve is a convex combination |
| C94 | edited glyphs can be saved | edits as data, their results by the program; each edit's effect on the point types; induction over histories; types of the points that kurbo and Skia conversions make |
| C95 | what is written is what the glyph says | the document by a specification of its elements, exact attributes and the grammar of numbers (Spec/Write); one lemma per element; C05 for contours, C79 for numbers |
| C96 | debug assertions | the functions with their assertions on (Model/Debug) compared with those of the release build; indices kept counted as a set; C05 and C86 for the points written and read; false: open contours that end off the curve |
| C97 | XML text | a concrete printer with any layout of white space, and a parser, in place of the parameter `XmlIO`; printing then parsing by induction over the tree, with escapes decoded character by character; SameDoc and C09 bring it to glyphs; for all other strings (`Spec/Spoken`), the printed text is a spelling (C140) of the document without tabs in attributes, with line feeds for ends of lines and without a blank note, and writing commutes with that (`C97_spoken`), so that the condition is exact (`C97_exact`); false: blank notes, control characters, tabs, carriage returns |
| C98 | number texts | shortest printing as a search over numbers of digits with exact integer arithmetic; every decimal that is read as the float lies in an interval around it, so the nearest n-digit decimal or its other neighbour is in it if any is; six digits or whole numbers below 2^24 are at least a gap apart; documents by C85, C86 and C05 |
| C99 | float operations, `ApplyMatrix` | data of floats (no number, infinity, sign and rational magnitude); every operation of Float/Core against the tables of IEEE 754, by the three kinds of floats and exactness of rounding |
| C100 | serde derives of all types (`Model/Serde`), `Carries` for what formats may do | a structure's row of fields holds what was serialised, whichever way it came; then field by field; contours by induction on the depth of the value |
| C101 | `MFEKGlif`, `HistoryEntry` | false (`filename` is skipped when writing but expected when reading a sequence): refutation for every glyph; `_partial` by induction on the depth of the value |
| C102 | the same, deserialising any value | each access to the row is equivalent to a statement about the value; more fuel than depth changes nothing |
| C103 | `GlifString` | false (no check): refutation; exact characterisation |
| C104 | the reader with its messages (`Model/Glif`) | requirements as a list of checks in the order of reading (`Spec/Faults`); each reading function runs through its part of the list, by composition; for texts and files with C140_exact; false for the message of a guideline's `y`: refutation, `_partial` for the rest |
| C105 | the distance test with kurbo's `Line::nearest` and `f64::sqrt` (`Model/Smooth`, `Float/Sqrt`) | forward errors of each operation; the parameter found is nearly the best one, by completing the square; correct rounding of the root is C99 |
| C106 | `Glif.flattened`, `applyMatrix` (`Model/Component`, `Model/Matrix`) | the error of one application (C91) by induction over the chain of matrices (C24) |
| C107 | `contourIntoKurbo` (`Model/PenOps`); what a path draws: `segsFrom` in `Spec/KurboDraw`, after `kurbo::BezPath::segments` | elements of the refigured contour against the segments of the contour, by induction over the points, both directions |
| C108 | `MContour.reversePoints` (`Model/Mfek`) | pairs of the reversed list by induction; a segment is determined by the places of its ends |
| C109 | `outlineFromSkia` (`Model/Skia`) | pieces of a path as a list that chains; the points between pieces by induction; open contours through points with explicit handles |
| C110 | `toSkiaPath` (`Model/Skia`) | the path is one contour of segments; induction over the points |
| C111 | `quadraticContour` (`Model/Outline`), `toSkiaPath` (`Model/Skia`) | induction over the points of the file with the off-curve point that waits |
| C112 | `cubicContour` (`Model/Outline`), `toSkiaPath` (`Model/Skia`) | the points read by C86's induction; C110 for what is drawn |
| C113 | `glifXml`, `readGlif` (`Model/Write`, `Model/Read`) | from C01 and C02: the stored contour has the same pieces, and moving the start rotates them |
| C114 | `Glif.flattened` (`Model/Component`), `toSkiaPaths` (`Model/Skia`) | making the path commutes with moving points, by induction; curves are weighted sums of control points, which maps keep, so C106's bound for points holds along them |
| C115 | `readGlif` (`Model/Glif`), `contourOfGlif` (`Model/Outline`), `toSkiaPath` (`Model/Skia`) | C08's contours of the file, what `<point>` elements say (C86), and C111/C112 for what their points draw; false for segments with one off-curve point: `C115_false` |
| C116 | `Problem.display`, `OpsErr.display`, `StrErr.display` (`Model/Message`) | no fixed beginning of a message is the beginning of another kind's; numbers and names end where they cannot go on |
| C117 | `outlineFromKurbo` (`Model/PenOps`) | closed form of the points of each subpath; induction on its segments compares control polygons with `kurbo`'s segments; the closing line is a straight cubic (`C117_line`, over the reals) |
| C118 | `outlineIntoKurbo`, `outlineFromKurbo` (`Model/PenOps`) | the path of a closed contour is a closed subpath in single precision; C107 says what it draws and C117 what becomes of it; for the exact condition the ends of the segments drawn are compared with those of the segments wanted |
| C119 | `splitPenOperations`, `hasNContours`, `penOpsValid` (`Model/PenOps`) | independent cut before every `MoveTo` (`Spec/Split`); induction on the operations with the part of the contour already read |
| C120 | `MGlif.flatten` (`Model/MfekFlatten`), `MGlif.toGlif` (`Model/Mfek`) | case analysis on the resolution; contours as in C22; the negation on the sample font |
| C121 | `Glif.flattened` (`Model/Component`), `glifXml`, `readGlif` (`Model/Glif`) | matrices keep the types of points (induction on the matrices), so `C01_exact` and `C113_saved` apply to what `C22_order` says is drawn; `C21_unfolding` leads from the nodes to the files |
| C122 | the constructors (`Model/New`), `glifXml`, `readGlif` (`Model/Glif`), `MGlif.toGlif` (`Model/Mfek`) | `C05_panics_iff` and `C06_no_err` for what can be written, `glif_trip` for what comes back, exact sums and products of floats for the components |
| C123 | `outlineToReversed` (`Model/Outline`) | contour by contour by induction; C05 for what can be saved, C28 for what a second reversal does |
| C124 | `MPoint.setName`, `setSmooth` and their readers (`Model/Mfek`) | case analysis on the kind of point |
| C125 | `PointLike` (`Model/PointLike`), `GlifPoint.ofPoint`, `Point.ofGlifPoint` (`Model/Point`) | `f32 as f64` is exact; an integer is an `f32` exactly if it has 24 bits and zeros, from the values of floats |
| C126 | `GlifComponent.refersTo` (`Model/Component`) with resolution and flattening | induction over the tree that was built; a reference to the glyph leads to its file, so the reference graph has a cycle through it, and C20_exact applies |
| C127 | `Plist.tree`, `Plist.value`, `Plist.io` (`Model/Plist`) between `glifXml`, `readGlif` and `Model/XmlText` | induction over the value: the printed tree is heard without blank texts, and the reader makes of that tree the value as heard; the glyph by C97 and C01; for all strings (`Spec/PlistSpoken`) the printed tree is heard as that of the value with line feeds for ends of lines (`C127_returns`), so that the conditions are exact for all dictionaries (`C127_all`) and all glyphs with them (`C127_glyphs`) |
| C128 | `applyComponentRect`, `flattened`, `toSkiaPath` | C26 for the points; a line or curve stays between its control points (de Casteljau over the rationals); refutation with a bow |
| C129 | `Edit.run` of cubic contours, `toSkiaPath` | what an edit does to the points (C48), what a contour draws (C110), and pieces of lists of points; refutations for every open contour |
| C130 | `Image.decode`, `tintPixels` | induction on the number of pixels |
| C131 | `Edit.run` and counterparts | each edit inverted on points, openness and operation; induction over the history for sequences |
| C132 | `applyMatrix`, `toReversed`, `refigure`, `toSkiaPath`, edits of cubic contours | moved contours as a map over the points; each function commutes with it; refiguring by its characterisation (C30) |
| C133 | `writeFont`, `readFile`, `forest`, `flattened` | the unfolding in files (C21, C84) related to that in memory by induction on the tree; arithmetic up to the signs of zeros; saved contours draw the same (C113); with the concrete printer and parser by C97 |
| C134 | `toComponent`, `forest`, `flattened`, `Disk.write` | induction on the depth of the recursion for the files not referred to; the unfolding (C21) for those referred to |
| C135 | `forest`, `flattenForest` | the set of names is left as it was, so the loop is a map over the components; the outline only grows |
| C136 | `writeFont`, `readFile`, `forest`, `flattened` | a simulation of one resolution by the other, by induction on the depth; flattening reads only contours and matrices |
| C137 | `readText`, `writeText`, `XmlText` | texts are those of the glyphs of C02, whose strings can be said again; equal texts are read as equal glyphs, so a rotation that does not show is of equal points |
| C138 | writer, reader, `toReversed`, `refigure`, Skia, kurbo, `flattened` | each function commutes with changing the data, by induction along its loop |
| C139 | `Point.isValid`, `GlifPoint.isValid`, the edits of C94, `Point.applyMatrix`, writer, reader | what each edit does to a point keeps validity, by induction over the history; `C139_written_exact` from the description of what is written; reading by induction along `cubicStep` and `quadStep`; matrices from the bounds of C91: a result further from 0 than its error is not subnormal. False for matrices (a coefficient of 2^-130) and for writing (a NaN in `y` is valid in a point and invalid in a file) |
| C140 | `XmlText.parse`, `readText` | a grammar of spellings (`Spec/Spelling`), after XML 1.0; the parser reads every text of the grammar as the document, by induction over the derivation, and no other text, by induction over the text (`C140_exact`); with C58 and C07 this says which texts are read, refused, or make the program panic (`C140_files`); what the program prints is in the grammar, so that C97_document is a case of it |
| C141 | `Plist.value`, `Plist.ofDocument`, `readLib`, `readText` | a relation between nodes and values after the property-list format (`Spec/LibFile`); the reader agrees with it by induction over the tree (`value_iff`); what was parsed from any spelling is printed and parsed again with line feeds for the ends of lines that references brought in (`spells_told`), which the relation has too; with C85 and C140 this is about texts, with C127_all about saving what was read |
| C142 | `readText`, `writeText`, the XML and property-list models | for any text: what was parsed is `Tellable` (C141), so all characters of the glyph are characters of XML (`told_chars`, with C85 and an induction over the contour loops for the names of points), its width and classes are writable, its lib holdable (C141); so C97 and C127 apply to what was read; what comes back has nothing left to lose (`resaved_audible`), which gives the unending chain; C02_exact and `read_contour_kind` give the exact condition on the file |
| C143 | `readText`, `writeText`, the XML model | `Spec.FileOfFormat`: the text spells (C140) a document that `Conforms`; what was read is `Formed` (C90_exact), what comes to be read of the printed text (`spoken_document`, with its tabs and note) is again formed with the same numbers (`spoken_formed`, `spoken_finite`), so C88_exact applies; C142_settles gives the chain |
| C144 | `readFile`, `writeFile`, `flattened`, the XML and plist models | `Spec.DrawsAlike`, `Spec.FlattenedAlike`, `Spec.OpenedAndSaved`; files before and after are related (`FilesAlike`: the same or alike glyphs), reading and `toComponent` respect the relation, then induction on the depth of the trees (`buildTree_alike`) and `visited`; one save by C142_partial and `alike_stored` (C139) |
| C145 | `MGlif.ofGlif`, `MGlif.toGlif`, `writeText`, `readFile`, `writeFile`, `flattened`, the XML and plist models | false (the lib is lost): `C145_false`, `C145_exact`; `Spec.SavesTheSame`, `Spec.OpenedInEditorAndSaved`; C47_exact, C97_resaved and C142_partial, then the relation of C144 with both kinds of steps |
| C146 | `readGlif` and all it calls after `Element::parse`, `outlineOfGlif` | proved: `readGlif_ok_iff` turns the reader into a conjunction; `Spec.SaidApart`, `Spec.together`, `Spec.withMore`, `Spec.withOutline`; `C146_each` by induction on the outline |
| C147 | `glifXml`, `readGlif` and all they call | proved: `saved_iff` turns saving and reading into reading one document with the written contours and components in its outline, then C146_each; `Spec.holding`, `Spec.withMore`; `C147_times` by induction on the number of saves |
| C148 | `contourOfGlif`, `cubicContour`, `quadraticContour`, `readGlif` | false (contours listed from an off-curve point on are lost): `C148_false`, `C148_exact`, `C148_quadratic`; `C148_drawn` (the same pieces are drawn); `Spec.CubicRing`, `Spec.Restarted`; the closed forms `cubicContour_eq` and `quadraticContour_eq` of the loops split at the new start; documents by C146_each |
| C149 | `contourOfGlif`, `cubicContour`, `toReversed`, `outlineToReversed`, `readGlif` | false (single control points): `C149_false`; without them `C149_partial`, `C149_drawn`, `C149_document`, and `C149_quadratic` for quadratic curves; `Spec.NoneAlone`, `Spec.ListedBackwards`; induction on the segments between on-curve points (`curvesOf_reverse`), the start by C148, documents by C146_each |
| C150 | `toReversed`, `refigure` | false (one pass of refiguring is not enough): `C150_false`, `C150_exact`; `C150_twice`, `C150_open`: always; `Spec.drawn`, `Spec.Drawn.back`; both sides are what the handles alone say (`byHandles`), which reversing turns around |

## Where the code disagrees with the properties

Each line is proved by the theorem named.

Reading and writing:
* Quadratic contours lose their control points on save, and a second save panics: `C01_false`, `C02_false`, C56.
* A closed quadratic contour that ends off the curve cannot be written again: C06, `C142_false`. No file with a quadratic contour can be saved, opened and saved: `C142_ever`.
* A contour taken to be cubic that has a `qcurve` point makes the reader panic: C07.
* Contours that start off the curve are dropped: C08; so which point a closed contour is listed from matters: `C148_false`, `C148_exact`, `C148_quadratic`.
* A curve with one control point is read with it as the handle of the point before, so a contour with one listed backwards is not read reversed: `C149_false`.
* A note of white space is written and not read (`C97_false`); tabs in names, identifiers and file names come back as spaces, and carriage returns in a note as line feeds (`C97_resaved`, `C97_exact`); any text with a character that XML does not have (in a name, a note, an identifier, a file name) is written to a file that cannot be read (`C97_control`).
* Colours with extra fields are accepted, with spaces rejected: C14.
* `to_glif_string` panics if a control character follows a non-ASCII one: C16.
* `Z` is not underscored in file names, and underscores in names collide, ignoring case: C18.
* A component whose base has a slash leaves the directory (C19; `C19_exact`: unless the slashes follow nothing but dots) and can be reported as a cycle (`C20_false`). `refers_to` compares names only, so it can be true of another glyph in another directory (`C126_false`).
* The colour of an image is not written: `C40_false`; large matrix coefficients change: `C40_large_offset`, `C40_exact`; none below `2^24` does: `C40_fonts`.
* A lib that `plist` rejects is dropped without an error: `C43_false`. Strings and keys of white space in a lib come back empty, and two such keys become one (`C127_false`, `C127_keys_false`); carriage returns become line feeds (`C127_returns`); a lib with a control character in it is left out whole (`C127_control`).
* `Point::new` makes an off-curve point (the comment on `PointType` says `Undefined`), and a contour of those cannot be written: `C122_false`. In debug builds the other constructors refuse off-curve points: `C122_debug`.

Components:
* Components nested deeper than two levels are lost by flattening: `C22_false`.
* Flattening replaces the glyph's own contours, and gives glyphs without components an empty outline: C23.
* Component rectangles leave out handles, so curves leave them: `C128_false`.
* Deleting the first point of an open contour in the editor closes it, and so does taking a part that does not begin
  there; appending an open contour loses a piece: `C129_delete_false`, `C129_sub_false`, `C129_append_false`.
  Closing a contour that is closed with a line makes it a curve: `C129_close_again`.
* Component rectangles are taken before the matrices are applied: `C26_false`.
* `GlifComponent::default()`, unlike `new()`, has scale 0 and moves every point to the origin: `C122_component`.

Geometry:
* Reversing mixed contours changes the segments drawn: C29.
* `refigure_point_types` is not idempotent if the last point's handle lies on its own point; a single point becomes off-curve: C30; so a closed contour may also draw something else after reversing and refiguring it: `C150_false`, `C150_exact`.
* A one-point contour that was read and refigured can no longer be written, and the outline of an empty kurbo path cannot
  either: C94.
* Refiguring does not commute with a matrix that puts a handle on its point: `C132_refigure_false`, exactly when in `C132_refigure_exact`.
* Smoothness at the ends of closed contours looks at the neighbour's handles: C57.
* `is_valid` tests `x.is_nan() || y.is_subnormal()`: `C54_false`.
* A matrix makes a valid point invalid (a subnormal `y`), and a valid point is written as an invalid point of a file (a NaN `y`): `C139_false`.
* kurbo: a curve point after a line point is left out; an open contour keeps all its points only if it has just two and is curved; the MoveTo of a closed contour is never valid (C70); `QuadTo` and a second `ClosePath` panic; the empty outline becomes one empty contour; closed contours of lines come back with a curve point: C34, C36, C37. A closed contour with lines and curves is drawn with the kinds shifted by one segment, an open one is drawn right only if it is a single curve: C107.
* `reverse_points` of editor contours does not exchange the handles, and closes open contours: C108.
* An outline made from a Skia path loses the closing curve of a closed contour that begins with a line: C109.
* The closing curve of a quadratic contour read from a file is drawn by Skia with the wrong control point: C111.
* A curve with one off-curve point in a file, quadratic by the format, is drawn as a cubic curve with its second control point at its end: C112, C115.
* An error in reading XML and one in writing it display the same message: C116.
* An outline made from a kurbo path loses the first control point of an open subpath that begins with a curve, and the last segment of one that ends where it starts; a subpath after `ClosePath` without `MoveTo` is joined to the one before: C117. Closed contours with lines and curves do not come back from kurbo as they were drawn: C118.
* An empty list of pen operations and a lone `Close` are valid as one contour; a `Close` that closes nothing panics the check; splitting a list of one operation loses it: C119.
* `Level::TrueType` is documented to round every point location and to refuse floats outside matrices; points are read
  as written at every level: `C81_false`.
* An integer coordinate of more than 24 bits is rounded when its point is made: `C125_false`, exactly when in `C125_exact`.
* Off-curve points beyond the two a curve can use stay in the queue and become handles of the next segment: `C86_false`.
* An open contour with off-curve points at its end, which can be read, cannot be reversed in a debug build: `C96_false`.
* A guideline with only one coordinate, which the format allows, makes the whole file unreadable, and a contour with
  a line and a quadratic segment makes the reader panic: `C89_false`.
* A number beyond the largest `f32` is read as infinite and written as `inf`, which is no number of the format: `C90_false`, `C143_false`.
* A bad `y` of a guideline is reported as a bad `x`: `C104_false`.
* A kurbo curve becomes a pen operation whose end is the curve's first control point: `C74_false`.
* Skia: the closing curve is lost if the first point is a curve and the second a line; single closed points panic; a last point on the first is lost: C53. A path with a one-curve loop panics: C67. Of an open contour, a lone trailing move point is lost and a line point followed by a curve point becomes a curve point: C66.

Property lists:
* The identifier of a guideline is not in its property list: `C77_false`.

Images:
* `data()` panics once decoding was attempted: `C44_false`; a failed reload leaves the old bytes to be decoded: `C44_stale`.
* `set_matrix` stores `f32`s: an image given its own matrix can have another one: `C73_false`.
* Image names with slashes leave the images directory: `C60_elsewhere`.

Editor types:
* A glyph flattened in the editor and converted to `Glif` has neither its components nor their contours: the conversion reads the first layer, the contours are in `flattened`: `C120_false`, exactly when in `C120_exact`.
* `Glif` → `MFEKGlif` → `Glif` loses the lib and turns a missing outline into an empty one: `C47_false`. Downgrading drops operations (`C47_false_operation`) and image matrices changed in the editor (`C47_false_images`). It panics for other than cubic contours and without layers: `C47_panics`.
* A failed attachment of operations has changed the outline up to the error: `C46_failed`.
* Sub-contours keep one width handle too many, and panic up to the last point if handles and points are in step; appending adds up surpluses; `MFEKCubicContour::delete` and `reverse_points` leave the handles alone: C48.
* A point deleted from a stroked contour and inserted again comes back with the width of the next one, and the last point panics: `C131_delete`, `C131_false`.
* `set_closed` leaves single cubic points open; opening or closing an empty contour panics; slicing and appending doubles a handle: C49.
* `has_handle(Neither)` is true: `C62_false`.
* Layers: a hidden first layer is not listed; "Layer 0" elsewhere becomes `public.default` in another directory; names collide ignoring case: `C64_false`.
* The file name of a custom cap is lost: `C50_custom_lost`.
* Moving a point far rounds its handles: `C51_false`.
* The smoothness of quadratic and hyperbezier points can be neither read nor set: `C124_false`.
* A default glyph of the editor has no layer, so it cannot be turned into a `Glif`: `C122_false`.

Serialisation:
* An editor glyph cannot be read from a format that leaves out the names of fields: `C101_false`.
* Strings that are deserialised are not checked: `C103_false`.

