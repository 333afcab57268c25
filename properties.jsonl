{"id": "C01", "title": "Saving and re-reading a glyph gives the glyph back", "statement": "For every glyph in the writable domain (contours with at least one on-curve point of a writable type, non-NaN text-safe fields), turning it into a <glyph> element and reading that element with default pedantry succeeds and returns the same name, width, code points, anchors, guidelines, images, components, note, lib and outline, up to an explicitly listed normalisation (lost point data, start-point rotation, implicit handles made explicit, image colour, sign of zero).", "quantifier": "every glyph value: any number of contours, points, anchors, guidelines, images, components, any field values", "why_tests_cant": "the glyph space is infinite; a test only checks the sample glyphs it ships and cannot enumerate what is lost", "anchors": ["src/glif/write.rs: Glif::xml", "src/glif/read.rs: read_ufo_glif_pedantic"]}
{"id": "C02", "title": "Saving is stable after the first save", "statement": "Reading back a saved glyph and saving again produces the same glyph as reading it once, except that a closed contour whose first point is a curve point has its start point moved back by one; no further data changes however often the cycle is repeated.", "quantifier": "every writable glyph, every number of save/load cycles", "why_tests_cant": "the number of cycles is unbounded; tests run one or two", "anchors": ["src/glif/write.rs: Glif::xml", "src/glif/read.rs: read_ufo_glif_pedantic", "src/outline/conv.rs: into_glifpoints"]}
{"id": "C03", "title": "A cubic contour survives save and load up to its start point", "statement": "Writing any cubic contour (open or closed; points of type move/line/curve) and reading it back gives the same points in the same cyclic order with the same types, names and smooth flags, and every off-curve handle of a curve segment at the same position; the start point moves back by one exactly when the first point is a curve point.", "quantifier": "every cubic contour of any length and any coordinates", "why_tests_cant": "contour length and the mix of segment types are unbounded", "anchors": ["src/outline/conv.rs: into_glifpoints, cleanup_offcurves", "src/outline/create.rs: cubic_contour"]}
{"id": "C04", "title": "The drifting start point has period equal to the contour length", "statement": "Saving and loading an all-curve closed contour of n points k times moves the start point back by k mod n places and changes nothing else after the first trip; after n trips the start point is back where it was.", "quantifier": "every all-curve closed contour, every number of cycles k", "why_tests_cant": "quantifies over every k and every n", "anchors": ["src/outline/conv.rs: into_glifpoints", "src/outline/create.rs: cubic_contour"]}
{"id": "C05", "title": "Writing a contour neither loses nor invents nor reorders on-curve points, and panics exactly on unwritable contours", "statement": "Converting a contour to file points panics exactly when it has no on-curve point or contains a point of type undefined/qclose; otherwise the on-curve points of the result are a rotation of the on-curve points of the contour, each curve point is preceded cyclically by exactly two off-curve points, each qcurve point by exactly one, each line/move point by none, and the result starts with an on-curve point.", "quantifier": "every contour of any length with any types and handles", "why_tests_cant": "needs every combination of types at every position", "anchors": ["src/outline/conv.rs: into_glifpoints, cleanup_offcurves"]}
{"id": "C06", "title": "Whatever was read can be written", "statement": "Every outline produced by reading a file can be written again without a panic.", "quantifier": "every parsed file", "why_tests_cant": "the failing files are ones nobody put in the test data; absence of panic ranges over all files", "anchors": ["src/outline/create.rs: quadratic_contour", "src/outline/conv.rs: cleanup_offcurves"]}
{"id": "C07", "title": "Reading never panics", "statement": "Reading any well-formed XML element returns Ok or Err; it never panics. (The exact set of inputs that panic is determined.)", "quantifier": "every XML element tree, every pedantry setting", "why_tests_cant": "ranges over all documents; fuzzing samples", "anchors": ["src/glif/read.rs: read_ufo_glif_pedantic", "src/outline/create.rs: cubic_contour"]}
{"id": "C08", "title": "Reading drops no contour that has a segment", "statement": "Every <contour> of the file with at least two points appears in the outline read; the contours that are dropped are exactly determined.", "quantifier": "every file, every list of contours", "why_tests_cant": "requires every combination of first-point types and contents", "anchors": ["src/outline/create.rs: Into<Outline> for GlifOutline"]}
{"id": "C09", "title": "Reading does not depend on the order of different kinds of elements", "statement": "If two <glyph> elements have the same attributes and, for each element name, the same sequence of children of that name, reading them gives the same result (same value or same error).", "quantifier": "every pair of documents that agree per element name, every pedantry", "why_tests_cant": "there are factorially many interleavings", "anchors": ["src/glif/read.rs: read_ufo_glif_pedantic"]}
{"id": "C10", "title": "Unknown elements, text and comments are ignored", "statement": "Inserting anywhere among the children of <glyph>, <outline> or <contour> nodes that are not one of the elements the reader knows (other elements, text, comments, CDATA, processing instructions) does not change the result of reading.", "quantifier": "every document and every set of inserted nodes", "why_tests_cant": "infinitely many insertions", "anchors": ["src/glif/read.rs: read_ufo_glif_pedantic"]}
{"id": "C11", "title": "Code points round trip", "statement": "For every Unicode scalar value, the hex text written for it parses back to the same character, it is written with upper case digits without leading zeros, and the reader accepts a hex string exactly when it denotes (with optional plus sign, any case) a scalar value.", "quantifier": "all 1,112,064 scalar values and all strings", "why_tests_cant": "all strings cannot be enumerated", "anchors": ["src/codepoint.rs: Codepoint::display", "src/glif/read.rs: read_ufo_glif_pedantic (unicode)"]}
{"id": "C12", "title": "Advance width round trips and float widths are truncated", "statement": "Every u64 width is read back exactly. A width that is not a u64 but parses as a float that is not subnormal is accepted exactly when mending is allowed and then gives the truncated value saturated to the u64 range (negative and NaN give 0); everything else is an error.", "quantifier": "every u64, every attribute string, every pedantry", "why_tests_cant": "all strings and 2^64 widths", "anchors": ["src/glif/read.rs: read_ufo_glif_pedantic (advance)", "src/glif/xml.rs: advance_xml", "src/pedantry.rs: should_mend"]}
{"id": "C13", "title": "Colour text round trips", "statement": "Writing a colour as text and parsing it gives numerically the same four components.", "quantifier": "every quadruple of integer-or-float components", "why_tests_cant": "2^128 colours", "anchors": ["src/color.rs: FromStr, ToString"]}
{"id": "C14", "title": "Colour parsing accepts exactly r,g,b,a", "statement": "Parsing a colour succeeds exactly for strings that consist of four comma separated numbers (with optional whitespace).", "quantifier": "every string", "why_tests_cant": "infinitely many strings", "anchors": ["src/color.rs: FromStr"]}
{"id": "C15", "title": "A validated string has no control characters", "statement": "Constructing a checked string succeeds exactly when the text has no ASCII control character (and, for the non-empty variant, is not empty); the stored text is the given text; on failure the reported index is the position of the first control character.", "quantifier": "every string", "why_tests_cant": "infinitely many strings", "anchors": ["src/string.rs: TryFrom<String> for GlifString / GlifStringLenOne"]}
{"id": "C16", "title": "Sanitising a string removes exactly its control characters", "statement": "Converting any string to a checked string removes all ASCII control characters, keeps all other characters in order, and does not panic. (The exact set of strings for which this holds is determined.)", "quantifier": "every string", "why_tests_cant": "a char-index/byte-index confusion only shows on strings mixing multi-byte and control characters", "anchors": ["src/string.rs: to_glif_string"]}
{"id": "C17", "title": "Different glyph names get different file names", "statement": "The mapping from glyph name to file name is injective, with and without extension.", "quantifier": "every pair of names", "why_tests_cant": "pairs of arbitrary strings", "anchors": ["src/glif.rs: name_to_filename"]}
{"id": "C18", "title": "Different glyph names get file names that differ on case-insensitive file systems", "statement": "For two different glyph names the file names differ even when case is ignored, which is the purpose of the inserted underscores.", "quantifier": "every pair of names", "why_tests_cant": "pairs of arbitrary strings", "anchors": ["src/glif.rs: name_to_filename"]}
{"id": "C19", "title": "The file name check is exact", "statement": "A glyph's file name is reported sane exactly when its final component is the file name derived from the glyph name, and two glyphs in the same directory whose file names are both sane and equal have the same name; a component's file is placed in the directory of the glyph that refers to it.", "quantifier": "every name and path", "why_tests_cant": "arbitrary names and paths", "anchors": ["src/glif.rs: filename_is_sane", "src/component.rs: set_file_name"]}
{"id": "C20", "title": "Component resolution terminates and detects exactly the cycles", "statement": "Resolving a glyph's components always terminates; when every file that can be reached exists and parses, it fails with the cyclic error exactly when some glyph reachable from the components refers, directly or indirectly, to itself, and otherwise succeeds.", "quantifier": "every finite font (set of glyph files) and every reference graph between them", "why_tests_cant": "all finite graphs; termination is not testable", "anchors": ["src/component.rs: build_component_tree, From<GlifComponents> for Result<Forest>"]}
{"id": "C21", "title": "The component forest is the unfolding of the reference graph", "statement": "On success, each node of the forest carries the glyph named by the reference with the matrix of the reference, and its children are, in file order, the resolutions of exactly the references of that glyph; repeated use of a glyph in different branches is allowed.", "quantifier": "every font and glyph on which resolution succeeds", "why_tests_cant": "all reference graphs", "anchors": ["src/component.rs: build_component_tree, to_component"]}
{"id": "C22", "title": "Flattening includes every descendant component", "statement": "The flattened outline contains the transformed contours of every node of the component forest exactly once.", "quantifier": "every component forest of any depth and width", "why_tests_cant": "unbounded depth; shipped data is at most two levels deep", "anchors": ["src/component.rs: flattened"]}
{"id": "C23", "title": "Flattening keeps the glyph's own contours", "statement": "The outline of a flattened glyph contains the glyph's own contours as well as those of its components; a glyph without components keeps its outline, so flattening twice equals flattening once.", "quantifier": "every glyph with contours and components", "why_tests_cant": "ranges over all glyphs", "anchors": ["src/component.rs: flattened"]}
{"id": "C24", "title": "Flattening applies a component's own transformation first and then its ancestors'", "statement": "Each contour contributed by a component is the component glyph's contour with, for every point and explicit handle, the component's own matrix applied first and then the matrix of each ancestor from the inside out; nothing else about the points changes and contour and point counts are kept.", "quantifier": "every forest, every matrix, every point", "why_tests_cant": "arbitrary matrices and depths", "anchors": ["src/component.rs: apply_component_rect", "src/matrix.rs: apply_matrix"]}
{"id": "C25", "title": "Flattening touches only outline and components", "statement": "A flattened glyph has no components left, and all other fields (name, anchors, guidelines, images, width, code points, note, lib, file name) are those of the original.", "quantifier": "every glyph", "why_tests_cant": "all glyph values", "anchors": ["src/component.rs: flattened"]}
{"id": "C26", "title": "Component rectangles bound the component's drawn contours", "statement": "The rectangle reported for a component contains every on-curve point that the component contributes to the flattened outline.", "quantifier": "every forest", "why_tests_cant": "arbitrary matrices and outlines", "anchors": ["src/component.rs: apply_component_rect, flattened"]}
{"id": "C27", "title": "Reversing a closed contour twice gives it back", "statement": "For every closed contour, reversing twice is the identity; reversing keeps the start point, and swaps the two handles of every point. Reversal panics exactly on the empty contour.", "quantifier": "every closed contour, any number of reversals", "why_tests_cant": "unbounded lengths and repetitions", "anchors": ["src/outline/contour/reverse.rs: to_reversed"]}
{"id": "C28", "title": "Reversing an open contour twice", "statement": "For an open contour of at least two points, reversing gives an open contour visiting the points in the opposite order; reversing twice gives the original back exactly when the type of the last point agrees with its handles.", "quantifier": "every open contour", "why_tests_cant": "unbounded lengths", "anchors": ["src/outline/contour/reverse.rs: to_reversed"]}
{"id": "C29", "title": "A reversed contour draws the same segments backwards", "statement": "The list of drawn segments (start, control points, end) of the reversed contour is the reversed list of reversed segments of the original.", "quantifier": "every contour", "why_tests_cant": "all mixtures of segment types", "anchors": ["src/outline/contour/reverse.rs: to_reversed"]}
{"id": "C30", "title": "Refiguring point types reaches a fixed point", "statement": "After refiguring point types no handle coincides with its point, every type agrees with the handles around it, positions, names and smooth flags are unchanged, and refiguring again changes nothing.", "quantifier": "every contour", "why_tests_cant": "all handle/point coincidences at all positions", "anchors": ["src/outline/refigure.rs: refigure_point_types"]}
{"id": "C31", "title": "Previous and next are inverse cyclic shifts", "statement": "For a list of at least two elements and a valid index, next(prev(i)) = i = prev(next(i)), and iterating next len times returns to i visiting every index once.", "quantifier": "every list length and index", "why_tests_cant": "unbounded length", "anchors": ["src/outline/contour.rs: GenericPrevNext"]}
{"id": "C32", "title": "Index errors and open ends are reported as documented", "statement": "prev/next lookups fail exactly when the index is out of range or the list has one element; on a valid index, the contour-aware lookup has no previous exactly at the head of an open contour and no next exactly at its tail. The only errors are the out-of-bounds error and, for a list of one element, the length-one error.", "quantifier": "every contour and index", "why_tests_cant": "unbounded length", "anchors": ["src/outline/contour.rs: PrevNext, idx_sane"]}
{"id": "C33", "title": "Checking smoothness changes only the flag of one point", "statement": "check_smooth changes nothing but the smooth flag of the given point, sets it to the value returned by the query, and leaves the contour unchanged on error; the ends of an open contour are never smooth.", "quantifier": "every contour, index and tolerance", "why_tests_cant": "unbounded", "anchors": ["src/outline/contour.rs: CheckSmooth"]}
{"id": "C34", "title": "Closed curve contours round trip through kurbo", "statement": "Converting outlines of closed contours whose segments are all cubic curves to a kurbo path and back gives the same contours (positions, handles, types).", "quantifier": "every outline of closed all-curve contours with finite coordinates", "why_tests_cant": "unbounded contours and points; f32/f64 conversions over all values", "anchors": ["src/outline/kurbo.rs: into_kurbo_vec, from_kurbo", "src/outline/conv/penops.rs"]}
{"id": "C35", "title": "Kurbo paths of closed contours are well formed", "statement": "The pen operations of every closed contour start with one MoveTo to the first point, end with one Close, contain no other MoveTo or Close and no quadratic. Every contour of two points or more is converted, a single point is refused, and the path of an outline is made of those of its contours in order, single points left out.", "quantifier": "every closed contour; every outline", "why_tests_cant": "all mixtures", "anchors": ["src/outline/conv/penops.rs: into_pen_operations"]}
{"id": "C36", "title": "A kurbo path visits every point of the contour", "statement": "For every contour (open or closed) the path produced visits every on-curve point, in order.", "quantifier": "every contour", "why_tests_cant": "all mixtures of lines and curves", "anchors": ["src/outline/conv/penops.rs: into_pen_operations"]}
{"id": "C37", "title": "Converting a kurbo path never panics", "statement": "from_kurbo returns an outline for every path. (The exact set of paths on which it panics is determined.)", "quantifier": "every path", "why_tests_cant": "all op sequences", "anchors": ["src/outline/conv/penops.rs: split_pen_operations, to_outline"]}
{"id": "C38", "title": "Quadratic to cubic elevation is exact", "statement": "Over exact arithmetic the cubic produced from a quadratic describes the same curve at every parameter.", "quantifier": "all control points and all parameters", "why_tests_cant": "continuum of inputs", "anchors": ["src/outline/quad_to_cubic.rs: quad_to_cubic"]}
{"id": "C39", "title": "Applying a matrix", "statement": "Applying a matrix transforms point and explicit handles by the same affine map and leaves implicit handles implicit; the identity matrix leaves every finite point numerically unchanged; over exact arithmetic applying two matrices in turn equals applying their product.", "quantifier": "every matrix and point", "why_tests_cant": "all floats", "anchors": ["src/matrix.rs: apply_matrix, GlifMatrix"]}
{"id": "C40", "title": "Components and images round trip through their elements", "statement": "Writing a component or image as an element and reading it back preserves base / file name, the six matrix coefficients, the identifier and the colour.", "quantifier": "every component / image", "why_tests_cant": "all field values", "anchors": ["src/component/xml.rs", "src/image/xml.rs", "src/matrix/write.rs", "src/glif/read.rs: load_matrix_and_identifier"]}
{"id": "C41", "title": "Guidelines round trip through their elements", "statement": "Writing a guideline as an element and reading it back preserves position, angle, colour, name and identifier exactly (angle and colour up to the sign of zero).", "quantifier": "every guideline", "why_tests_cant": "all floats and strings", "anchors": ["src/guideline/xml.rs", "src/glif/read.rs (guideline)"]}
{"id": "C42", "title": "Anchor acceptance follows the pedantry table", "statement": "An anchor is accepted exactly when mending is Always or both coordinates are integers; coordinates are rounded exactly for OpenType/TrueType levels; an anchor is a mark exactly when its class starts with an underscore; invalid class names are dropped.", "quantifier": "every anchor element and every pedantry", "why_tests_cant": "all coordinates and strings", "anchors": ["src/anchor.rs: from_glif", "src/pedantry.rs"]}
{"id": "C43", "title": "The lib is never lost", "statement": "Reading keeps the <lib>: as a plist dictionary if it is one, otherwise as raw XML, so that writing the glyph writes the lib.", "quantifier": "every lib element", "why_tests_cant": "all XML trees", "anchors": ["src/glif/read.rs (lib)", "src/glif/lib.rs", "src/glif/write.rs"]}
{"id": "C44", "title": "The image loading state machine is safe", "statement": "Along every sequence of load/decode/data calls starting from a loaded image, the state and the stored data agree (Loaded implies raw bytes, Decoded implies a bitmap), and no call panics.", "quantifier": "every sequence of calls, every outcome of file reads and decoding", "why_tests_cant": "unbounded call histories and environment behaviours", "anchors": ["src/image.rs: Image"]}
{"id": "C45", "title": "Merging layer lists keeps everything once", "statement": "Merging our layer contents into an existing list keeps every existing entry in order, adds exactly the missing ones in order, introduces no duplicate and is idempotent.", "quantifier": "every pair of lists", "why_tests_cant": "all lists", "anchors": ["src/glif/mfek/layer.rs: merge_layercontents_plists, to_layercontents_plist"]}
{"id": "C46", "title": "Contour operations can be detached and re-attached", "statement": "Detaching the operations of an outline gives one entry per contour; attaching a list of operations succeeds exactly when there is one per contour, and then detaching returns that list; detach-then-attach is the identity.", "quantifier": "every outline and list of operations", "why_tests_cant": "unbounded lengths", "anchors": ["src/glif/mfek/traits.rs: upgrade_contour_ops, downgrade_contour_ops"]}
{"id": "C47", "title": "Upgrading to and downgrading from the editor's glyph type loses nothing", "statement": "Converting a glyph to the editor representation and back gives the same glyph; downgrading an outline succeeds exactly when every contour is cubic and carries no operation.", "quantifier": "every glyph", "why_tests_cant": "all glyph values", "anchors": ["src/glif/mfek/mod.rs: From<Glif>, From<MFEKGlif>", "src/glif/mfek/traits.rs"]}
{"id": "C48", "title": "Variable width handles stay in step with points under editing", "statement": "Along every history of appending, deleting, inserting points and taking sub-contours, the number of width handles stays equal to the number of points (plus a constant).", "quantifier": "every edit history", "why_tests_cant": "unbounded histories", "anchors": ["src/glif/mfek/contour_operations/vws.rs", "src/glif/mfek/contour.rs"]}
{"id": "C49", "title": "Opening, closing, slicing and appending editor contours", "statement": "set_open makes a contour open, set_closed makes it closed, each is idempotent and changes only the first point's type; sub(start,end) returns exactly the points start..end and append concatenates, so slicing a contour in two and appending gives it back.", "quantifier": "every contour and index", "why_tests_cant": "unbounded lengths", "anchors": ["src/glif/mfek/inner/cubic.rs, quad.rs, hyper.rs"]}
{"id": "C50", "title": "Textual enumerations round trip", "statement": "Point types that may appear in a file, handle letters, and join/cap/interpolation names parse back from their text form.", "quantifier": "every value (including unbounded custom cap names)", "why_tests_cant": "custom names are arbitrary strings", "anchors": ["src/point.rs: PointType, WhichHandle", "src/glif/mfek/contour_operations/vws.rs: JoinType, CapType, InterpolationType"]}
{"id": "C51", "title": "Moving a point moves its handles rigidly", "statement": "Setting an editor point's position moves each explicit handle by the same displacement and leaves implicit handles implicit.", "quantifier": "every point and position", "why_tests_cant": "all coordinates", "anchors": ["src/glif/mfek/point/mod.rs, quad.rs, hyper.rs"]}
{"id": "C52", "title": "Coordinate text round trips", "statement": "Every f32 written as text and read back as a coordinate is numerically equal (NaN stays NaN, infinities and subnormals survive).", "quantifier": "all f32 values", "why_tests_cant": "2^32 values and correctness of decimal conversion on all strings", "anchors": ["src/glif/read.rs (parse)", "src/point/xml.rs", "src/anchor/xml.rs", "src/guideline/xml.rs"]}
{"id": "C53", "title": "Closed contours round trip through Skia paths", "statement": "Converting a closed contour to a Skia path and back gives the same contour.", "quantifier": "every closed contour", "why_tests_cant": "unbounded", "anchors": ["src/outline/skia/to.rs", "src/outline/skia/from.rs"]}
{"id": "C54", "title": "The validity check rejects NaN and subnormal coordinates", "statement": "A point reported valid has no NaN and no subnormal coordinate in position or handles.", "quantifier": "every point", "why_tests_cant": "all bit patterns", "anchors": ["src/point/valid.rs"]}
{"id": "C55", "title": "Rounding coordinates is idempotent and local", "statement": "Rounding an outline to integers rounds every on-curve position, changes nothing else, keeps all counts, and doing it twice equals doing it once.", "quantifier": "every outline", "why_tests_cant": "all floats", "anchors": ["src/outline/refigure.rs: RoundToInt"]}
{"id": "C56", "title": "A quadratic contour survives save and load", "statement": "Reading a quadratic (qcurve) contour, writing it and reading it again keeps every control point, and the result can be written again.", "quantifier": "every quadratic contour of any length", "why_tests_cant": "no finite set of contours shows that control points are never lost or that repeated saving never panics", "anchors": ["src/outline/create.rs: quadratic_contour", "src/outline/conv.rs: into_glifpoints, cleanup_offcurves"]}
{"id": "C57", "title": "A point's smooth flag depends on its own handles", "statement": "Whether a point of a contour counts as smooth is decided by that point's own two handles and position (or by its neighbours' positions where a handle is colocated); the handles of other points do not matter.", "quantifier": "all contours and all point indices", "why_tests_cant": "The ends of a closed contour take a different branch; the handles consulted there only differ from the right ones on asymmetric contours.", "anchors": ["src/outline/contour.rs: CheckSmooth"]}
{"id": "C58", "title": "The reader accepts exactly the acceptable documents", "statement": "Reading a <glyph> element returns an error if and only if the document lacks something the format requires: the glyph tag, format 2, a name, a readable width, readable code points, anchors with coordinates, images with a file name, guidelines with position and angle, points with coordinates, components with a base, and readable numbers and colours wherever given. No other content, wherever it stands, makes the reader fail.", "quantifier": "every XML tree, every pedantry setting", "why_tests_cant": "The set of documents is infinite and the check order hides later errors; tests only cover individual malformed files.", "anchors": ["src/glif/read.rs"]}
{"id": "C59", "title": "Image formats are told by their signatures", "statement": "The codec guessed for an image file of at least twelve bytes is PNG, JPEG, TIFF, GIF, WebP or BMP exactly when the file begins with that format's signature; anything else, and any shorter file, is unknown.", "quantifier": "every sequence of bytes", "why_tests_cant": "Files in unknown formats cannot be enumerated; overlapping or shadowed patterns only show on chosen prefixes.", "anchors": ["src/image.rs: guess_codec"]}
{"id": "C60", "title": "The image of a glyph is taken from the images directory", "statement": "For a glyph file in a directory of glyphs and an image whose file name is a plain name, the image read is the file of that name in the directory images beside the directory of glyphs. The image gets that file's bytes, the codec of its signature, and the matrix and colour written in the glyph. Without a glyph file name or with an unreadable file there is an error and never a panic.", "quantifier": "every glyph path, every image reference, every file system", "why_tests_cant": "Path handling goes wrong on unusual directories and names; tests use one font.", "anchors": ["src/image.rs: to_image_of, GlifImage"]}
{"id": "C61", "title": "Iterating an editor contour visits each point once", "statement": "The iterator over an editor contour of any of the three kinds gives each of its points exactly once, in order, and then ends.", "quantifier": "every contour", "why_tests_cant": "unbounded lengths", "anchors": ["src/glif/mfek/contour.rs: MFEKContourCommonIterator"]}
{"id": "C62", "title": "Handles of editor points can be set and read", "statement": "Setting a handle that a point has makes reading it return that handle, leaves the other handle, the position and all else alone; setting a handle that the point does not have does nothing; has_handle says which ones it has.", "quantifier": "every point, handle and value", "why_tests_cant": "all points of three types", "anchors": ["src/glif/mfek/point/mod.rs, quad.rs, hyper.rs: MFEKPointCommon"]}
{"id": "C63", "title": "The next point of a hyperbezier contour", "statement": "The point after the last of a closed hyperbezier contour of more than one point is the first; in open contours, single points and beyond the end there is none.", "quantifier": "every contour and index", "why_tests_cant": "unbounded lengths", "anchors": ["src/glif/mfek/inner/hyper.rs: next_point"]}
{"id": "C64", "title": "Layer contents are well formed", "statement": "The layer contents list every visible layer once and in order; names differ, directories differ even if case is ignored, and the directory glyphs belongs to public.default.", "quantifier": "every list of layers", "why_tests_cant": "unbounded lists, all names", "anchors": ["src/glif/mfek/layer.rs: to_layercontents_plist, to_glyphs_dir"]}
{"id": "C65", "title": "The colour of a layer survives its layer information", "statement": "to_layerinfo_plist has the colour of the layer and nothing else, in a form from which the colour can be read back; without colour there is no layer information.", "quantifier": "every layer", "why_tests_cant": "all colours", "anchors": ["src/glif/mfek/layer.rs: to_layerinfo_plist"]}
{"id": "C66", "title": "Open contours survive Skia", "statement": "An open contour of lines and curves, of two points or more, goes to a Skia path and comes back with the same points and control polygons and is still open; its point types are kept exactly if no line point is followed by a curve point.", "quantifier": "every open contour whose first point is not NaN", "why_tests_cant": "unbounded contours, all coordinates and type patterns", "anchors": ["src/outline/skia/to.rs: to_skia_path", "src/outline/skia/from.rs: split_skia_path, from_skoutline, fixup_skia_open_contour"]}
{"id": "C67", "title": "Which Skia paths make the conversion panic", "statement": "Making an outline from a Skia path panics exactly if some closed contour of the path is a single cubic or quadratic curve that ends where it began; every other path gives an outline.", "quantifier": "every Skia path", "why_tests_cant": "unbounded paths, all verbs and coordinates", "anchors": ["src/outline/skia/from.rs: from_skia_path, split_skia_path, conics_to_cubics, from_skoutline"]}
{"id": "C68", "title": "Outlines from Skia paths have the path's points", "statement": "The outline made of a Skia path has a contour for each contour that draws anything, in order, with one point at the beginning of each segment and one at the end of an open contour, at the path's coordinates.", "quantifier": "every Skia path without conics, loops, lone moves and open contours starting at NaN", "why_tests_cant": "unbounded paths", "anchors": ["src/outline/skia/from.rs: from_skia_path, split_skia_path, from_skoutline"]}
{"id": "C69", "title": "Single pen operations: length and simplification", "statement": "The length of a pen operation is the number of its points, and the last one is where it ends. Simplifying changes exactly the curves whose two control points are on the end point, into the line to it; simplifying again changes nothing. The operations made from a contour are always those of exactly one contour, which ends its segments where they do.", "quantifier": "every pen operation; every contour", "why_tests_cant": "all coordinates", "anchors": ["src/outline/conv/penops.rs: PenOperations::len, simplify, SplitPenOperations"]}
{"id": "C70", "title": "Generated pen operations are valid", "statement": "All pen operations made from a contour with clean coordinates are valid by PenOperations' own check.", "quantifier": "every contour whose coordinates are neither NaN nor subnormal", "why_tests_cant": "unbounded contours", "anchors": ["src/outline/conv/penops.rs: IntoPenOperations, IsValid for PenOperations"]}
{"id": "C71", "title": "Editor outlines drawn by Skia", "statement": "The Skia paths of an editor outline whose contours are all cubic are those of the outline of these contours, whatever operations they carry; the conversion panics exactly if some contour is not cubic.", "quantifier": "every editor outline and every pair of point transforms", "why_tests_cant": "unbounded outlines", "anchors": ["src/glif/mfek/mod.rs: ToSkiaPaths for MFEKOutline"]}
{"id": "C72", "title": "Combined Skia paths and point transforms", "statement": "The combined Skia path consists of the paths of all contours with points, each once: the open ones in order, then the closed ones in order. An open or closed path is missing exactly if there is no such contour. Point transforms act as if all points and explicit handles had been moved by them before.", "quantifier": "every outline and every pair of point transforms", "why_tests_cant": "unbounded outlines, arbitrary functions", "anchors": ["src/outline/skia/to.rs: SkiaPaths::combined, to_skia_paths, to_skia_path, SkiaPointTransforms"]}
{"id": "C73", "title": "Conversions of points and matrices between kurbo, Skia and glif lose nothing", "statement": "A Skia point survives the conversion to kurbo and back. The Skia matrix of a component or image has its six coefficients in place. An image that is given a matrix has this matrix.", "quantifier": "every point, matrix and image", "why_tests_cant": "all floats", "anchors": ["src/point/conv/skia.rs", "src/matrix/skia.rs: to_skia_matrix", "src/image.rs: GlifImage::set_matrix, matrix"]}
{"id": "C74", "title": "kurbo path elements as pen operations", "statement": "A kurbo path element with f32 coordinates survives the conversion to a pen operation and back.", "quantifier": "every path element", "why_tests_cant": "all coordinates", "anchors": ["src/outline/kurbo.rs: From<PathEl> for PenOperations, Into<PathEl> for PenOperations"]}
{"id": "C75", "title": "Handles as points", "statement": "A handle taken as a point, a GlifPoint or a kurbo point is at the place of the handle, or of the point if there is no handle; making a handle explicit this way moves nothing. A point as a GlifPoint and back loses exactly its handles and data; a GlifPoint as a point and back is itself exactly if its coordinates are floats.", "quantifier": "every point and handle", "why_tests_cant": "all coordinates", "anchors": ["src/point.rs: handle_as_gpoint, handle_as_point, handle_as_kpoint", "src/point/conv.rs"]}
{"id": "C76", "title": "Colours as floats and property lists", "statement": "Four floats make a colour and are got back; a colour is got back from its floats exactly if it holds no integers; the property list value has the four numbers in order.", "quantifier": "every colour", "why_tests_cant": "all floats", "anchors": ["src/color.rs: From<[f32; 4]>, Into<[f32; 4]>, as_plist_value"]}
{"id": "C77", "title": "Guidelines as property lists", "statement": "The property list of a guideline determines the guideline; its keys are x, y, angle, and name and color if the guideline has them.", "quantifier": "every guideline", "why_tests_cant": "all values", "anchors": ["src/guideline.rs: as_plist_dict, from_x_y_angle, name, color, identifier"]}
{"id": "C78", "title": "Kinds and points of editor contours", "statement": "Of the three views of an editor contour exactly that of its type is there; it is empty exactly if its length is 0 and has points exactly at the indices below its length; changing one of its points changes no other point, nor its length or type.", "quantifier": "every contour, index and change", "why_tests_cant": "unbounded contours", "anchors": ["src/glif/mfek/inner/*.rs: get_type, cubic, quad, hyper, is_empty, get_point, get_point_mut"]}
{"id": "C79", "title": "Number texts are read as the nearest value", "statement": "A number in an attribute is accepted exactly if its text is an optional sign followed by digits with at most one decimal point and an optional exponent, or by inf, infinity or nan in any case; it is read as an integer exactly if it is the text of an integer of 32 bits, and otherwise as the float nearest to the number written, the even one of two.", "quantifier": "every text", "why_tests_cant": "infinitely many texts; rounding must be right for each decimal number", "anchors": ["src/glif/read.rs: x, y, angle, matrix and colour attributes; src/glif/read.rs 101-104; crate integer_or_float"]}
{"id": "C80", "title": "Pedantry changes only what it says", "statement": "Two pedantries that both accept a document read the same glyph from it, except that anchor positions differ where one pedantry is of a font-file level and the other is not, and then by rounding; a pedantry accepts every document another accepts exactly if it mends whenever the other always mends and it is the strictest only if the other is.", "quantifier": "every pair of pedantries and every document", "why_tests_cant": "the comparison ranges over all documents and over pairs of settings", "anchors": ["src/pedantry.rs", "src/glif/read.rs 70-330"]}
{"id": "C81", "title": "Font-file levels give whole coordinates", "statement": "At the OpenType and TrueType levels every coordinate read is a whole number, as the documentation of Level says.", "quantifier": "every document", "why_tests_cant": "a fractional coordinate may be anywhere in the document", "anchors": ["src/pedantry.rs 1-60", "src/glif/read.rs 160-215"]}
{"id": "C82", "title": "A saved font is found again", "statement": "A glyph that can be saved, written to a file, is read back from every path that leads to that file, with its own file name and with component file names beside it, and no other file changes; a font saved glyph by glyph under names with no slash is read back glyph by glyph, also on a file system that ignores case if the names are case-safe.", "quantifier": "every glyph, every list of glyphs and every file system", "why_tests_cant": "every combination of names, earlier files and file systems", "anchors": ["src/glif/read.rs 50-66", "src/glif/write.rs 13-23", "src/component.rs 100-135"]}
{"id": "C83", "title": "Conversions from and to text", "statement": "Converting text to a glyph with From panics exactly if the text is not XML or the document is not acceptable, and otherwise gives what reading gives; converting a glyph to text panics exactly if it cannot be written; converting there and back gives the glyph as re-saved.", "quantifier": "every text and every glyph", "why_tests_cant": "all texts", "anchors": ["src/glif/conv.rs"]}
{"id": "C84", "title": "A saved font resolves", "statement": "If every component of a font refers to a glyph of the font, each glyph read back after saving the font resolves to its full component tree exactly if no chain of references leads from it to a glyph that refers to itself, and otherwise gives the cyclic error.", "quantifier": "every closed font, at every nesting depth", "why_tests_cant": "every graph of references of any size", "anchors": ["src/component.rs", "src/glif/read.rs 50-66", "src/glif/write.rs 13-23"]}
{"id": "C85", "title": "What is read is what the document says", "statement": "Every part of a glyph that was read, its contours apart, is what the corresponding element or attribute of the document says: name, width, code points, anchors, images, guidelines, components, note and lib, numbers being the nearest value to the decimal written; and a document without a mistake that says all this of a glyph is read as that glyph.", "quantifier": "every document, every pedantry, every glyph", "why_tests_cant": "every attribute of every element of arbitrary documents", "anchors": ["src/glif/read.rs 21-330"]}
{"id": "C86", "title": "Points of cubic contours are those of the file", "statement": "The points of a contour of lines and cubic curves are the on-curve points of the file in order, each with the place, type, name and smoothness the file gives it, and with the off-curve points next to it as its handles, those at the end of the file leading back to the first point.", "quantifier": "every document and every contour, of any length", "why_tests_cant": "contours of arbitrary length with arbitrary arrangements of off-curve points", "anchors": ["src/outline/create.rs 108-163", "src/glif/read.rs 235-276"]}
{"id": "C87", "title": "Points of quadratic contours are those of the file", "statement": "The points of a contour that starts with a qcurve point are those of the file in order, with an implied point half-way between two neighbouring off-curve points and one half-way back to the first point if the file ends with an off-curve point.", "quantifier": "every document and every contour, of any length", "why_tests_cant": "contours of arbitrary length with arbitrary arrangements of off-curve points", "anchors": ["src/outline/create.rs 18-106", "src/glif/read.rs 235-276"]}
{"id": "C88", "title": "What is written is a document of the format", "statement": "A glyph that fits the UFO glif format (a name without control characters, finite numbers, at most one image, no image identifier, angles and colours in range, components with a name, distinct proper identifiers, a move point only at the start of a contour), if it is written at all, is written as a document of that format: known elements and attributes only, each single element at most once, numbers in plain decimal notation, known point types, and no contour with a move point inside, with off-curve points before a line or move, or with more than two before a curve.", "quantifier": "every glyph, of any size", "why_tests_cant": "every glyph, with contours of arbitrary length", "anchors": ["src/glif/write.rs 44-120", "src/glif/xml.rs 14-18", "src/outline/contour/xml.rs 7-25", "src/point/xml.rs 6-25", "src/outline/conv.rs 9-73"]}
{"id": "C89", "title": "Documents of the format are read", "statement": "Every document of the UFO glif format is read.", "quantifier": "every document of the format", "why_tests_cant": "the set of all documents of the format is infinite", "anchors": ["src/glif/read.rs 21-330"]}
{"id": "C90", "title": "Documents of the format stay so", "statement": "A document of the UFO glif format that is read and written again is still a document of the format.", "quantifier": "every document of the format", "why_tests_cant": "the set of all documents of the format is infinite", "anchors": ["src/glif/read.rs 21-330", "src/glif/write.rs 44-120"]}
{"id": "C91", "title": "Transformed coordinates are accurate", "statement": "Applying a matrix with finite coefficients to a finite point moves the point, and each of its explicit handles, to the exact image under the map, off by at most 2^-24 of the exact coordinate (one rounding to f32), plus 2^-50 of the sum of the magnitudes of the numbers added up, plus 2^-149, as long as that sum is at most 2^126. If the sum is at most 2^17, as in fonts, the result is off by at most 1/100 unit.", "quantifier": "every matrix and every point with finite numbers", "why_tests_cant": "rounding errors depend on the binary digits of all eight numbers; no sample of them bounds the error", "anchors": ["src/matrix.rs 30-45 ApplyMatrix for Point"]}
{"id": "C92", "title": "Moved handles are accurate", "statement": "Setting the position of an editor point moves each of its explicit handles by the exact displacement of the point, off by at most 2^-24 of the new handle coordinate and of twice the displacement, as long as these are at most 2^125.", "quantifier": "every editor point, every new position, with finite numbers", "why_tests_cant": "rounding errors depend on the binary digits of all numbers", "anchors": ["src/glif/mfek/point/mod.rs 84-100 set_position", "src/glif/mfek/point/quad.rs 92-104", "src/glif/mfek/point/hyper.rs 90-106"]}
{"id": "C93", "title": "Elevated curves are accurate", "statement": "The cubic curve computed for a quadratic curve runs, at every parameter between 0 and 1, within 5/2^24 of the largest coordinate (and 2^-149) of the quadratic curve, for coordinates up to 2^124.", "quantifier": "every three points with finite coordinates, every parameter", "why_tests_cant": "infinitely many parameters and more points than can be tried", "anchors": ["src/outline/quad_to_cubic.rs 8-20 quad_to_cubic", "src/outline/skia/from.rs 92-151"]}
{"id": "C94", "title": "Edited glyphs can be saved", "statement": "A glyph that can be written can still be written after any sequence of the library's edits of its contours: reversing, refiguring point types, rounding, applying matrices, checking smoothness, opening and closing, deleting points, taking sub-contours and appending. So can flattened glyphs whose components can be written, and outlines made of kurbo and Skia paths.", "quantifier": "every glyph, every sequence of edits, every component forest, every path", "why_tests_cant": "edit histories are unbounded; the type of every point after every edit matters", "anchors": ["src/outline/contour/reverse.rs", "src/outline/refigure.rs", "src/glif/mfek/inner/cubic.rs", "src/glif/mfek/inner/mod.rs", "src/component.rs", "src/outline/conv/penops.rs", "src/outline/skia/from.rs", "src/outline/conv.rs 34-73"]}
{"id": "C95", "title": "What is written is what the glyph says", "statement": "The document written for a glyph says what the glyph says and nothing else: its elements are the advance, code points, anchors, contours, components, images, guidelines, note and lib of the glyph, in order, each with exactly the attributes for which there is a value; the text of every number denotes exactly that number; the points of a contour are in cyclic order with the off-curve points of a segment in front of its end, from some on-curve point on. (Colours of images have no place in this list: they are not written, see C40.)", "quantifier": "every glyph that can be written, every number", "why_tests_cant": "a mistake that the reader undoes is invisible to round trips; all attribute combinations and all floats", "anchors": ["src/glif/write.rs 45-119", "src/glif/xml.rs", "src/codepoint.rs 14-20", "src/anchor/xml.rs", "src/point/xml.rs", "src/outline/contour/xml.rs", "src/outline/xml.rs", "src/component/xml.rs", "src/image/xml.rs", "src/guideline/xml.rs", "src/matrix/write.rs", "src/color.rs 52-56"]}
{"id": "C96", "title": "A debug build does what a release build does", "statement": "No debug assertion fails where a release build goes on: glyphs are written, contours of files are reversed, Skia paths are converted and names of handles are read with the same result in both builds.", "quantifier": "every glyph, every contour read from a file, every Skia path, every text", "why_tests_cant": "assertions about arbitrary contours; tests run in one kind of build", "anchors": ["src/outline/conv.rs 34-73", "src/point/xml.rs 21", "src/outline/contour/reverse.rs 62-63", "src/outline/skia/from.rs 74-181", "src/point.rs 290-309"]}
{"id": "C97", "title": "The text of a glyph says what the glyph says", "statement": "Whatever strings a glyph carries - names, identifiers, file names, its note, its lib - its XML text is read back as the glyph that was written: quotes, brackets and ampersands are escaped, and the indentation adds nothing.", "quantifier": "every glyph, every string, every layout of white space", "why_tests_cant": "escaping has to be right for every character in every place; tests use plain names", "anchors": ["src/glif/write.rs 25-44", "src/glif/read.rs 74-94", "src/glif/xml.rs 1-4"]}
{"id": "C98", "title": "Numbers keep their text", "statement": "A number is written as the shortest text that is read as the same float, of several of that length the one nearest to it; so the coordinates of a file that is read and written again come out letter for letter as they went in, if they are whole numbers below 2^24 or have at most six digits and no needless zeros.", "quantifier": "every float of both precisions, every number text, every document", "why_tests_cant": "a digit lost or added in one number of four thousand million would show in diffs of fonts only; tests try a few", "anchors": ["src/glif/write.rs 45-119", "src/point/xml.rs 7-24", "src/anchor/xml.rs 7-17", "src/guideline/xml.rs 7-24", "src/matrix/write.rs 1-18"]}
{"id": "C99", "title": "Transformations at the edges of arithmetic", "statement": "A transformed point is what the six numbers of the matrix and the coordinates say under IEEE 754, whatever they are: infinities, values that are no numbers, zeros of either sign, and sums and products that overflow or vanish; every operation on floats in the library gives the nearest float to the exact result, the even one of two, and otherwise the datum of the standard's tables.", "quantifier": "every pair of floats of both precisions, every matrix and every point", "why_tests_cant": "each operation has 2^64 and more pairs of arguments; infinities and signed zeros come together in ways no test has", "anchors": ["src/matrix.rs 31-43", "src/component.rs", "src/contour/mod.rs", "src/point.rs"]}
{"id": "C100", "title": "Glyphs survive serialisation", "statement": "A glyph, loaded component, layer, contour, point, handle, anchor, guideline, component, image or operation that is serialised with serde and deserialised is the same one (a glyph loses only its file name), in every format that keeps the values of fields: with or without the names of fields, in any order, with unknown fields added; serialising fails only for a glyph whose library is no property list.", "quantifier": "every glyph and every other value of the serialisable types, patterns nested to any depth, every format", "why_tests_cant": "a field left out or marked differently for writing and reading shows only in the formats and for the values no test has", "anchors": ["src/glif.rs 40-68", "src/point.rs 18-25, 47-71, 141-157", "src/anchor.rs 45-78", "src/guideline.rs 15-37", "src/component.rs 25-49, 80-101", "src/image.rs 86-97", "src/color.rs", "src/glif/lib.rs 6-17", "src/glif/mfek"]}
{"id": "C101", "title": "Editor glyphs survive serialisation", "statement": "An editor glyph with its history that is serialised and deserialised is the same one, but for file names, in every format that keeps the values of fields.", "quantifier": "every editor glyph, histories of any length and depth, every format", "why_tests_cant": "needs a format without names of fields, and a history", "anchors": ["src/glif/mfek/mod.rs 33-53, 124-133"]}
{"id": "C102", "title": "What deserialisation accepts", "statement": "A value is deserialised as a glyph, point, anchor and so on exactly if each field that has to be there is there once and of the right kind, and every other known field is there once and of the right kind or is missing and has its default; names that are not known do not matter; a sequence has the fields in the order of the source, and is not longer; numbers are in the range of their type; variants have the names of the source.", "quantifier": "every value of serde's data model, for every serialisable type", "why_tests_cant": "tests have files the library has written, not those of other programs with fields missing, twice, or out of range", "anchors": ["src/glif.rs 40-68", "src/point.rs 18-25, 47-71, 141-157", "src/anchor.rs 16-23, 45-78", "src/guideline.rs 15-37", "src/component.rs 25-49, 80-101", "src/image.rs 86-97", "src/color.rs 8-15", "src/glif/mfek"]}
{"id": "C103", "title": "Deserialised strings are checked", "statement": "A checked string that comes from deserialisation has no control character, like one that was made from a text.", "quantifier": "every value", "why_tests_cant": "needs a serialised file that the library did not write", "anchors": ["src/string.rs 14-20", "src/string/serde_impl.rs"]}
{"id": "C104", "title": "A refused file is refused for its first fault", "statement": "A document that is refused is refused for the first of its faults in the order of reading (root, first advance, code points, anchors, images, guidelines, points of the contours of the first outline, components), with the message that belongs to this fault, and the message names the attribute that is at fault.", "quantifier": "every document, every pedantry", "why_tests_cant": "tests have a few broken files with one fault each", "anchors": ["src/glif/read.rs 24-44, 76-287"]}
{"id": "C105", "title": "A point is smooth if it lies between its handles", "statement": "is_point_smooth_within reports a point smooth exactly if the point is at most the tolerance away from the segment between the two handles it is judged by, up to the rounding of the computation: a point reported smooth is at most tolerance + slack away, and a point at most tolerance - slack away is reported smooth, with a slack of 2^-42 of the largest coordinate and of the tolerance. With a NaN among the numbers, or without one of the handles, it is not smooth.", "quantifier": "all contours, indices, tolerances and finite coordinates", "why_tests_cant": "The computation divides, multiplies and subtracts nearly equal numbers; where the nearest point is picked wrongly only for some handles, a test with round coordinates does not show it.", "anchors": ["src/outline/contour.rs 160-197"]}
{"id": "C106", "title": "Flattened points are where the matrices put them", "statement": "When a glyph is flattened, every point of a component and every explicit handle comes to lie where the exact composition of the component's own matrix and those of its ancestors puts it, up to a rounding error that accumulates with every matrix: the error so far is stretched by the matrix, and 2^-23 of the numbers added up is added. In the sizes of fonts (matrices that at most double, numbers up to 32768) it is at most 1/50 unit.", "quantifier": "all glyphs, forests of components, finite matrices and coordinates", "why_tests_cant": "Errors accumulate over nested components with arbitrary matrices; tests have integer offsets, which are exact.", "anchors": ["src/component.rs 163-261", "src/matrix.rs 29-47"]}
{"id": "C107", "title": "A kurbo path draws the segments of the contour", "statement": "The kurbo path of a contour draws exactly the segments of the contour, in order: between two consecutive points a straight line if neither of the handles along it is off its point, and otherwise the cubic curve with these handles as control points; for a closed contour also from the last point to the first.", "quantifier": "all contours of two or more points", "why_tests_cant": "Whether each segment is drawn with its own kind and control points depends on how lines and curves alternate and on where the contour starts; tests convert a few glyphs and compare bounding boxes.", "anchors": ["src/outline/conv/penops.rs 90-146", "src/outline/kurbo.rs 48-100"]}
{"id": "C108", "title": "Reversing a contour in the editor draws it backwards", "statement": "reverse_points on an editor contour keeps the contour open or closed and draws the same segments in the opposite order, each run backwards; doing it twice gives the contour back.", "quantifier": "all cubic contours, with or without operations", "why_tests_cant": "Tests of reversal use the other implementation (Reverse for contours) and do not look at handles.", "anchors": ["src/glif/mfek/inner/cubic.rs 56-58", "src/glif/mfek/contour.rs 168-171"]}
{"id": "C109", "title": "An outline made from a Skia path draws what the path draws", "statement": "Making an outline from a Skia path gives, for each contour of the path that draws anything, a contour that is open or closed like it and whose segments have the control polygons of the pieces of the path, in order (quadratics and conics as the cubics they are converted to).", "quantifier": "all paths of any number of contours and segments that can be converted, all coordinates", "why_tests_cant": "Paths are unbounded and mix four kinds of segments; existing tests compare no control points.", "anchors": ["src/outline/skia/from.rs 40-275"]}
{"id": "C110", "title": "The Skia path of a contour draws the contour", "statement": "The Skia path of a contour of lines and curves is one contour, open if the contour begins with a move point and closed otherwise, that draws the segments of the contour with their control points, in order; only a closing line of no length is left out.", "quantifier": "all contours of lines and curves of any length, all coordinates", "why_tests_cant": "Contours are unbounded and segments depend on handles of two points.", "anchors": ["src/outline/skia/to.rs 95-151", "src/point.rs 207-218"]}
{"id": "C111", "title": "Quadratic contours are drawn with the control points of the file", "statement": "Reading a contour of quadratic curves from a file and drawing it with Skia draws the curves of the file: with a point on the curve half-way between neighbouring off-curve points, and a last curve back to the first point.", "quantifier": "all quadratic contours of any length that begin with an on-curve point, every midpoint arithmetic", "why_tests_cant": "Any number of off-curve points in a row; the test data has no quadratic outline drawn with Skia.", "anchors": ["src/outline/create.rs 18-106", "src/outline/skia/to.rs 95-151"]}
{"id": "C112", "title": "Cubic contours are drawn as the file says", "statement": "Reading a contour of lines and cubic curves from a file and drawing it with Skia draws what the file says: lines, and between on-curve points a curve of the degree that the number of off-curve points gives (straight for none, quadratic for one, cubic for two), closed unless the first point is a move.", "quantifier": "all contours of any length that begin with an on-curve point and have at most two off-curve points before each other one, all coordinates", "why_tests_cant": "Contours are unbounded and the off-curve points at the end belong to the first point; existing tests compare no control points.", "anchors": ["src/outline/create.rs 108-163", "src/outline/skia/to.rs 95-151"]}
{"id": "C113", "title": "Saving does not change what is drawn", "statement": "However often a glyph of lines and cubic curves is saved and read again, each of its contours draws the same pieces with the same control points in the same order, up to the one they begin with and the signs of zeros, and is open if it was.", "quantifier": "all glyphs that can be saved whose contours have a move point only at the beginning; any number of saves", "why_tests_cant": "Any number of saves of contours of any length, with the start moving at each save.", "anchors": ["src/outline/conv.rs 55-73", "src/outline/create.rs 108-163"]}
{"id": "C114", "title": "Flattened glyphs draw their components", "statement": "What a flattened glyph draws is what the glyphs of its components and of their components draw, moved: its Skia path consists of their paths with every control point moved by the matrices on the way, and every line and curve runs, at every parameter, where the exact composition of the matrices puts the original one, up to the accumulated rounding error (1/50 unit in the sizes of fonts).", "quantifier": "all glyphs that can be flattened, all contours, all matrices; the bound for finite matrices and points of bounded size", "why_tests_cant": "A statement about every parameter of every curve of outlines of any size in f32 and f64 arithmetic.", "anchors": ["src/component.rs 163-261", "src/outline/skia/to.rs 60-151", "src/matrix.rs 29-47"]}
{"id": "C115", "title": "Documents draw what their points say", "statement": "When a document is read, every contour of it that is not dropped becomes, in order, a contour of the glyph whose Skia path draws what the <point> elements say: the lines and curves with the numbers in the attributes as control points, closed unless the first point is a move.", "quantifier": "all documents that can be read, all contours", "why_tests_cant": "A statement about every document, from the text of its attributes to the pieces of the path.", "anchors": ["src/glif/read.rs 230-280", "src/outline/create.rs 20-163", "src/outline/skia/to.rs 60-151"]}
{"id": "C116", "title": "Messages tell errors apart", "statement": "The message that an error displays tells which error it is and everything it carries: two errors with the same message are the same error.", "quantifier": "all errors, with all texts and numbers they carry", "why_tests_cant": "Infinitely many errors, whose messages contain arbitrary texts that might look like other messages.", "anchors": ["src/error.rs 22-152", "src/error/mfek.rs 9-30", "src/error/string.rs 1-10"]}
{"id": "C117", "title": "An outline made from a kurbo path draws what the path draws", "statement": "Making an outline from a kurbo path of lines and cubic curves gives one contour for each subpath, open or closed like it, whose segments draw the lines and curves of the subpath in order (in single precision), also the line by which ClosePath returns to the start.", "quantifier": "all kurbo paths of lines and cubic curves", "why_tests_cant": "Infinitely many paths: any number of subpaths of any length, with lines and curves in any order, ending at their start or elsewhere, with any coordinates.", "anchors": ["src/outline/kurbo.rs 62-85", "src/outline/kurbo.rs 149-155", "src/outline/conv/penops.rs 166-201", "src/outline/conv/penops.rs 203-273"]}
{"id": "C118", "title": "Closed contours are drawn the same after kurbo and back", "statement": "Converting an outline of closed contours to a kurbo path and back gives as many contours, closed, that draw the same lines and curves in the same order (the documentation: closed contours are guaranteed to round trip).", "quantifier": "all outlines of closed contours", "why_tests_cant": "Infinitely many contours of lines and curves; both conversions move handles between neighbouring points.", "anchors": ["src/outline/kurbo.rs 1", "src/outline/kurbo.rs 97-122", "src/outline/kurbo.rs 149-155", "src/outline/conv/penops.rs 86-146", "src/outline/conv/penops.rs 203-273"]}
{"id": "C119", "title": "A list of pen operations is valid when it holds one contour", "statement": "`is_valid` of a list of pen operations tells whether it contains one and only one contour, as the type's documentation asks, and `split_pen_operations` cuts a list before every MoveTo without losing or reordering operations.", "quantifier": "all lists of pen operations", "why_tests_cant": "Lists are unbounded and the loop rewrites the start of a contour when it is closed; MoveTos and Closes come in any order.", "anchors": ["src/outline/conv/penops.rs 148-165", "src/outline/conv/penops.rs 167-201"]}
{"id": "C120", "title": "A glyph flattened in the editor loses nothing when saved", "statement": "Flattening an MFEKGlif keeps its layers and every field but the components, puts into `flattened` the contours of its components as flattening the Glif gives them, and the Glif made from the result draws the glyph's own contours and those of its components.", "quantifier": "all MFEK glyphs, all fonts and resolutions of components", "why_tests_cant": "Layers, component forests and fonts are unbounded; the macro writes to another field for MFEKGlif than for Glif, and the conversion back to Glif reads neither.", "anchors": ["src/component.rs 214-263", "src/glif/mfek/mod.rs 93-120"]}
{"id": "C121", "title": "Flattened glyphs can be saved", "statement": "In a font all of whose files have contours of lines and cubic curves, a glyph that can be saved can also be saved once it is flattened, any number of times, and what flattening gave is drawn the same after every save. A flattened glyph comes back as it was exactly if the contours of its components and of their components have points, all of lines and cubic curves, and its anchors' classes and lib can be saved.", "quantifier": "all fonts, all glyphs, all nestings of components, any number of saves", "why_tests_cant": "Fonts, contours and nestings are unbounded, and the contours saved are moved by any matrices.", "anchors": ["src/component.rs 214-256", "src/glif/write.rs 19-120", "src/glif/read.rs 74-317"]}
{"id": "C122", "title": "Glyphs made with the constructors can be saved", "statement": "A glyph made with the library's constructors, given a name, contours of points made by any of the constructors of points, and new components, can be saved; polygons come back with the same points in the same order and the components still move nothing. A new glyph and a default glyph of the editor can be taken from and to the editor, and new points of the editor can be moved as if they had been made elsewhere.", "quantifier": "all names, contours, points, constructors and components", "why_tests_cant": "Contours and the calls that make their points are unbounded in number, and coordinates and handles are arbitrary floats.", "anchors": ["src/point.rs 171-192", "src/point.rs 255-270", "src/component.rs 26-92", "src/glif.rs 71-74", "src/glif/mfek/mod.rs 33", "src/glif/mfek/point/hyper.rs 24-34", "src/glif/mfek/point/quad.rs 25-34"]}
{"id": "C123", "title": "Whole outlines are reversed contour by contour", "statement": "Reversing an outline reverses each contour on its own, in order, and panics exactly if a contour is empty. An outline that can be saved can be reversed and then still be saved. Reversing three times is reversing once; reversing twice gives the outline back exactly if in every open contour of more than one point the type of the last point agrees with the handles.", "quantifier": "all outlines", "why_tests_cant": "Outlines, contours and the types and handles of their points are unbounded.", "anchors": ["src/outline/reverse.rs 5-16", "src/outline/contour/reverse.rs 17-67", "src/glif/write.rs 19-120"]}
{"id": "C124", "title": "Names and smoothness of editor points can be set and read", "statement": "Of every kind of editor point, the name and the smoothness that the point has can be set and read through the common interface; setting one leaves everything else alone.", "quantifier": "all points of the three kinds, all names", "why_tests_cant": "Points have arbitrary coordinates, handles, names and data.", "anchors": ["src/glif/mfek/point/mod.rs 115-149", "src/glif/mfek/point/quad.rs 79-134", "src/glif/mfek/point/hyper.rs 77-138"]}
{"id": "C125", "title": "Points of files, outlines and kurbo are at the same places", "statement": "Converting between file points, points and kurbo points does not move them; a coordinate that is set is read back, and setting one changes nothing else.", "quantifier": "all points, all coordinates", "why_tests_cant": "Coordinates are arbitrary 32-bit integers and floats; the difference shows beyond 24 bits only.", "anchors": ["src/point/valid.rs 14-26", "src/point/valid.rs 59-72", "src/point/valid.rs 99-112", "src/point/conv.rs 20-45", "src/point/conv/kurbo.rs 4-26"]}
{"id": "C126", "title": "A component refers to what it resolves to, and a glyph built from itself does not flatten", "statement": "In the forest of a glyph every component refers to the glyph it was resolved to. A glyph in the file its name calls for does not flatten if a component of it, or of a glyph it is built from, refers to it.", "quantifier": "all fonts, all glyphs, any depth of components", "why_tests_cant": "The chain of components that leads back to the glyph has no bound, and the names are arbitrary text.", "anchors": ["src/component.rs 118-150", "src/component.rs 226-256", "src/component.rs 284-330", "src/glif.rs 80-92", "src/glif/read.rs 54-66"]}
{"id": "C127", "title": "The lib of a glyph survives saving and reading", "statement": "A lib dictionary of strings, integers, reals, booleans, dates, data, arrays and dictionaries is read back from the text of the glyph with the same keys, the same values and the same order.", "quantifier": "all dictionaries, any depth of nesting, all strings and keys, all layouts of the XML", "why_tests_cant": "The nesting has no bound and the strings are arbitrary; the dictionary passes through four printings and parsings.", "anchors": ["src/glif/lib.rs 8-25", "src/glif/read.rs 290-304", "src/glif/write.rs 90-116"]}
{"id": "C128", "title": "Component rectangles contain what is drawn", "statement": "The rectangle reported for a component that is drawn where it is contains every line and curve that is drawn of it, at every parameter.", "quantifier": "all flattened glyphs, all their components, all contours of lines and curves, all parameters between 0 and 1", "why_tests_cant": "Contours and parameters have no bound; a test looks at the points of contours, which are in the rectangle, and not at the curves between them.", "anchors": ["src/component.rs 163-209", "src/component.rs 226-256", "src/outline/skia/to.rs 88-160"]}
{"id": "C129", "title": "Edits change only what is drawn there", "statement": "For a contour of lines and curves in the editor, deleting a point replaces the two pieces drawn at it by one, inserting a point replaces one piece by two, taking a part of an open contour leaves what was drawn between its points, and appending a contour to an open one draws the pieces of both and one between them; none of these changes whether the contour is open. Opening a contour takes away the piece into its first point, and closing one adds it if it is not there.", "quantifier": "all open and closed contours of lines and curves, all places in them, all points inserted and contours appended, with or without a contour operation", "why_tests_cant": "Contours and places have no bound; a test compares the points after an edit, and not the path that is drawn of them, which depends on the kind of the first point.", "anchors": ["src/glif/mfek/contour.rs 52-72", "src/glif/mfek/contour.rs 154-184", "src/glif/mfek/inner/mod.rs 47-123", "src/glif/mfek/inner/cubic.rs 25-75", "src/outline/skia/to.rs 88-160"]}
{"id": "C130", "title": "A tinted image is its grey image times its colour", "statement": "Decoding the bytes of an image that has a colour stores the grey version of the decoded bitmap, of the same width and height, with each of the four channels of every pixel multiplied with that component of the colour; an image without a colour stores the decoded bitmap as it is. File name, codec, colour and matrix stay.", "quantifier": "all images with decodable bytes, all colours, bitmaps of any size", "why_tests_cant": "Bitmaps have no bound in size and the channels of a pixel are told apart by index only; a test on a small picture of one colour does not tell which component goes to which channel.", "anchors": ["src/image.rs 211-243", "src/color.rs 10-22"]}
{"id": "C131", "title": "Edits in the editor can be undone", "statement": "Deleting an inserted point, inserting a deleted point again where it was, cutting off what was appended, reversing a reversed contour, and closing an opened or opening a closed one restore the contour, with its contour operation; and a history of edits is taken back by these in the opposite order.", "quantifier": "all contours of the three kinds, with any contour operation and any number of width handles, all edits and all histories of edits", "why_tests_cant": "Histories and contours have no bound, and restoring a contour is about every field of every point and width handle; a test compares the number of points.", "anchors": ["src/glif/mfek/contour.rs 52-72", "src/glif/mfek/contour.rs 168-188", "src/glif/mfek/contour_operations/vws.rs 19-76", "src/glif/mfek/inner/mod.rs 44-100"]}
{"id": "C132", "title": "Editing a moved contour is moving an edited contour", "statement": "Reversing, opening, closing, deleting, slicing, appending and refiguring a contour whose points and handles were moved gives the moved result of doing it to the contour itself, and the Skia path of the moved contour is the moved path.", "quantifier": "all contours, all matrices and all other ways of moving points, all of these edits", "why_tests_cant": "Contours have no bound and matrices range over six floating point numbers; a test tries one matrix on one contour, and handles that a matrix puts on their points are rare.", "anchors": ["src/matrix.rs 29-46", "src/outline/contour/reverse.rs 17-67", "src/outline/refigure.rs 25-75", "src/outline/skia/to.rs 95-151", "src/glif/mfek/inner/cubic.rs 16-82"]}
{"id": "C133", "title": "A font that was saved, read and flattened draws its components as they were", "statement": "Save a font, read one of its glyphs and flatten it: what is drawn are the glyph's components and their components as they were in the font before it was saved, each piece moved by the components' matrices as they were.", "quantifier": "all fonts of lines and cubic curves whose components refer to glyphs of the font, with matrices of font sizes; nesting to any depth; all places in a file system; up to the signs of zeros and the piece a contour begins with", "why_tests_cant": "It takes writer, reader, file names, resolution and flattening together; a test does it for one font, and compares pictures.", "anchors": ["src/glif/write.rs 1-120", "src/glif/read.rs 1-317", "src/component.rs 90-256", "src/outline/skia/to.rs 95-151"]}
{"id": "C134", "title": "Flattening reads the files of the glyphs referred to, and no others", "statement": "What a glyph is flattened to depends only on the files of the glyphs it refers to, directly or indirectly, and on each of them: other files can be written, changed or deleted without any effect, and no one of these can be missing.", "quantifier": "all glyphs, all contents of all files, cycles and unreadable files included; for saved fonts all glyphs saved afterwards", "why_tests_cant": "An effect of a file nobody refers to is found by a test only if it changes just that file.", "anchors": ["src/component.rs 115-146", "src/component.rs 226-256", "src/component.rs 284-330", "src/glif/read.rs 46-77"]}
{"id": "C135", "title": "Components are flattened one by one", "statement": "Flattening a glyph gives the contours and rectangles of its components one after the other: those of the glyph with its first components only, followed by those of the glyph with the others only; the first component that fails decides the error. In another order the components give the same contours in another order.", "quantifier": "all glyphs, all lists of components, all outcomes of resolution", "why_tests_cant": "The components share a set of names and a growing outline; tests have one or two components.", "anchors": ["src/component.rs 163-256", "src/component.rs 284-330"]}
{"id": "C136", "title": "What a font draws does not depend on the names of its glyphs", "statement": "Rename the glyphs of a font, and what refers to them, and save it to another place: each glyph is flattened to the same outline, or with the same error, as before.", "quantifier": "all fonts of saveable glyphs that refer to glyphs of the font, all renamings that keep names different, all places; cyclic fonts included", "why_tests_cant": "File names are computed from the names; a clash or a wrong escape shows for some names only.", "anchors": ["src/glif.rs 76-78", "src/glif.rs 111-124", "src/component.rs 115-146", "src/component.rs 284-330", "src/glif/write.rs 13-44"]}
{"id": "C137", "title": "The text of a file settles when it is saved over and over", "statement": "Open a file and save it, again and again: after as many saves as the longest contour has points the text repeats with a period that every contour of curve points only divides by its number of points, and with period one, so that it no longer changes, if and only if the points of each such contour are all the same.", "quantifier": "all saveable glyphs whose texts can be said in XML, all numbers of saves, all indentations", "why_tests_cant": "The repetition is longer than any test saves; a version control diff after every save is what users see.", "anchors": ["src/glif/read.rs 74-94", "src/glif/write.rs 25-44", "src/outline/conv.rs: into_glifpoints"]}
{"id": "C138", "title": "Point data is carried along and never looked at", "statement": "The data that a program attaches to points has no effect on what is written, drawn, flattened, reversed, refigured, rounded, transformed or found smooth, and reading gives points without data.", "quantifier": "all kinds of point data, all changes of it, all glyphs, contours and outlines, all files", "why_tests_cant": "Tests use one kind of point data, mostly the empty one, so that an effect of it cannot show.", "anchors": ["src/point.rs 1-60", "src/outline/conv.rs: into_glifpoints", "src/outline/contour/reverse.rs 17-67", "src/outline/refigure.rs 17-113", "src/outline/skia/to.rs 60-151", "src/outline/conv/penops.rs 90-146", "src/component.rs 125-256"]}
{"id": "C139", "title": "Valid points stay valid", "statement": "A contour of valid points still consists of valid points after any history of edits (reversing, refiguring, rounding, transforming, smoothing, opening, closing, deleting, slicing, appending valid points), is written as valid points of a file, and valid points of a file are read as valid points.", "quantifier": "all contours of valid points, all histories of edits, all matrices, all contours of files", "why_tests_cant": "A test that checks validity does so after one edit of one contour with ordinary numbers; the numbers that the check is about (NaN, subnormal numbers) do not occur.", "anchors": ["src/point/valid.rs 14-96", "src/outline/contour/reverse.rs 17-67", "src/outline/refigure.rs 17-113", "src/point.rs 86-128", "src/outline/conv.rs: into_glifpoints", "src/outline/create.rs 108-174"]}
{"id": "C140", "title": "However a file is spelled, it is read alike", "statement": "Two texts that spell the same document, with any white space in and between tags, either quotation mark, characters or references to them, any ends of lines, and comments or instructions around the root, are read as the same glyph or refused with the same error; a saved glyph comes back from every spelling of its document, and a text is read exactly if it is a spelling of an acceptable document without quadratic points in cubic contours (which make the program panic, C07).", "quantifier": "all documents, all spellings of them, all levels of pedantry, all glyphs that can be saved", "why_tests_cant": "The fixtures are spelled by one or two programs; the number of spellings of a single file is unbounded.", "anchors": ["src/glif/read.rs 74-75", "src/glif/write.rs 25-44"]}
{"id": "C141", "title": "The lib of any file is read as the format says", "statement": "However its lib is spelled, with any comments, instructions, white space and character data sections and any attributes, a file that is read gives a glyph whose lib is the dictionary that the lib says by the XML format of property lists: strings, integers of 64 bits, numbers, truth values, dates, data, arrays and dictionaries to any depth, a key that is there twice having its last value at its first place. If the lib is not one dictionary, the glyph has no lib. A lib that was read from a file without character data sections in it comes back as itself when it is saved.", "quantifier": "all texts that are read, all levels of pedantry, all libs, to any depth", "why_tests_cant": "The fixtures have a few libs, all written by programs, without comments, repeated keys or sections.", "anchors": ["src/glif/read.rs 291-304", "src/glif/lib.rs 1-22"]}
{"id": "C142", "title": "A file that can be opened can be saved and opened again", "statement": "Any text that can be read as a glyph, at any level of pedantry and whoever wrote it, gives a glyph that can be saved; the saved text can be read; and this can go on for ever. All that is lost is lost at the first save: tabs in attributes become spaces, carriage returns in the note become line feeds, a note of white space is gone, and white space alone in a string or key of the lib is gone. What has none of these comes back as it is.", "quantifier": "all texts that are read, all levels of pedantry, any number of saves", "why_tests_cant": "The tests open the fixtures, and save some of them once; the fixtures were written by programs that spell nothing in unusual ways.", "anchors": ["src/glif/read.rs", "src/glif/write.rs", "src/outline/create.rs 108-183", "src/outline/conv.rs"]}
{"id": "C143", "title": "A file of the format stays a file of the format", "statement": "A text that is a GLIF file as the format says, whoever wrote it and however it is spelled, is still one after it was opened and saved, and after every later save: the saved text spells an XML document whose elements, attributes, numbers, colours, names, identifiers and sequences of points are as the format asks.", "quantifier": "all texts of the format that are read and written, all levels of pedantry, any number of saves", "why_tests_cant": "The tests read and write fixtures and compare some numbers; whether the text that was written is of the format is not looked at.", "anchors": ["src/glif/read.rs", "src/glif/write.rs", "src/outline/create.rs 108-183", "src/outline/conv.rs", "src/point/mod.rs"]}
{"id": "C144", "title": "Opening and saving files of a font does not change what the font draws", "statement": "When files of a font are opened and saved where they were, in any order and any number of times, every file of the font is read afterwards with the same outcome as before, the contours of its glyph are as open as before and draw the same pieces in the same order (up to the piece they begin with and the signs of zeros), and flattening the glyph has the same outcome, with contours that draw the same. This holds when the saved glyphs have lines and cubic curves with no move point but at the beginning of a contour, no tabs in references, and matrices whose floats are below 2^24 or beyond 2^31; such a glyph can always be saved to a file that can be written, and is then again of this kind. The other files may hold anything.", "quantifier": "all file systems (paths may lead to the same file), all fonts in them, all texts, any sequence of saves, any depth of references", "why_tests_cant": "The tests save one file and compare numbers of points; no test saves a file that others refer to and flattens the others afterwards.", "anchors": ["src/glif/read.rs 46-77", "src/glif/write.rs 13-44", "src/component.rs 37-126", "src/glif.rs 90-168", "src/outline/create.rs", "src/outline/conv.rs"]}
{"id": "C145", "title": "Saving a file from the editor without a change does what saving it without the editor does", "statement": "A file that is opened in the editor (read, then turned into the editor's glyph) and saved there without a change (turned back, then written) is saved as the same text that reading and writing it gives, and can be opened again; and a font whose files are opened and saved where they were, some in the editor and some not, in any order and any number of times, is read with the same outcomes as before and draws the same, also flattened.", "quantifier": "all files of lines and cubic curves; all file systems, all fonts in them, any sequence of saves of both kinds, any depth of references", "why_tests_cant": "No test saves from the editor's type.", "anchors": ["src/glif/mfek/mod.rs 45-120", "src/glif/mfek/contour.rs", "src/glif/read.rs 46-77", "src/glif/write.rs 13-119", "src/glif.rs 90-168"]}
{"id": "C146", "title": "A document is read part by part", "statement": "Where no advance, note, outline or lib occurs in both of two parts of a glif document, the document is read exactly if each part alone is, as the glyph with the lists (characters, anchors, images, guidelines, components) of the second after those of the first and the rest from the part that has it; and of an outline, each contour and component is read as it is read alone, whatever the others are: the document is read exactly if it is with each thing in the outline alone, and its contours and components are those in order.", "quantifier": "all documents, all ways of splitting them, all outlines of any length, both settings of pedantry, any plist reader and midpoint", "why_tests_cant": "No test reads the parts of a document separately.", "anchors": ["src/glif/read.rs 74-317", "src/outline/create.rs 165-183"]}
{"id": "C147", "title": "A glyph is saved and read contour by contour", "statement": "What becomes of a contour or component when its glyph is saved and read again, once or any number of times, does not depend on the other contours and components: the glyph can be saved and read exactly if it can be with each of them alone, and then comes back with what each comes back as, in order, and the rest as it comes back without them.", "quantifier": "all glyphs with contours of any kind and components, all ways of splitting them, any number of saves, any plist library and midpoint, both settings of pedantry", "why_tests_cant": "No test saves a contour alone and with others.", "anchors": ["src/glif/write.rs 45-119", "src/outline/xml.rs 8-16", "src/outline/contour/xml.rs 7-25", "src/glif/read.rs 74-317", "src/outline/create.rs 165-183"]}
{"id": "C148", "title": "It does not matter which point a closed contour begins with in the file", "statement": "If the points of a closed contour of a file are listed from another point on, in the same cyclic order, the contour is read with the same points and handles, from another point on, and the rest of the glyph is read the same.", "quantifier": "all closed contours of lines and cubic or quadratic curves of any length, all rotations of their points, all documents with any number of such contours and anything else in them", "why_tests_cant": "No test lists the points of a contour from another one on.", "anchors": ["src/outline/create.rs 18-183", "src/glif/read.rs 234-287"]}
{"id": "C149", "title": "A closed contour listed backwards in the file is read reversed", "statement": "If the points of a closed contour of a file are listed in the opposite cyclic order, from an on-curve point on, the contour is read as the reversal of what was read before, from some point on, its segments run backwards, and the rest of the glyph is read the same.", "quantifier": "all closed contours of lines and cubic or quadratic curves of any length, all starts, all documents with any number of such contours and anything else in them", "why_tests_cant": "No test reads a contour listed backwards.", "anchors": ["src/outline/create.rs 18-183", "src/outline/contour/reverse.rs 17-69", "src/outline/reverse.rs 5-17", "src/glif/read.rs 234-287"]}
{"id": "C150", "title": "A reversed contour whose point types are refigured draws backwards", "statement": "A contour whose point types were refigured draws, after reversing it and refiguring its types again, the same lines and curves, each run backwards, in the opposite order.", "quantifier": "all contours of two points or more, open and closed, with any handles", "why_tests_cant": "The test reverses one circle, all of whose points are curves, and no test refigures a reversed contour.", "anchors": ["src/outline/contour/reverse.rs 17-69", "src/outline/refigure.rs 25-74"]}
