{
 "claims": [
  {
   "property": "C03",
   "status": "proved",
   "theorems": [
    "GP.C03_cubic_round_trip",
    "GP.C03_same_points",
    "GP.C03_same_curves",
    "GP.C03_lone_move"
   ],
   "note": "All non-empty contours of move/line/curve points except a lone move point, which is dropped (C03_lone_move)."
  },
  {
   "property": "C04",
   "status": "proved",
   "theorems": [
    "GP.C04_drift",
    "GP.C04_period",
    "GP.C04_kept_self"
   ],
   "note": ""
  },
  {
   "property": "C05",
   "status": "proved",
   "theorems": [
    "GP.C05_panics_iff",
    "GP.C05_file_points",
    "GP.C05_on_curve_points",
    "GP.C05_outline"
   ],
   "note": ""
  },
  {
   "property": "C06",
   "status": "partial",
   "theorems": [
    "GP.C06_panics_iff",
    "GP.C06_false",
    "GP.C06_partial",
    "GP.C06_no_err",
    "GP.C06_contour_panics_iff"
   ],
   "note": "False of the code: closed quadratic contours that end off-curve are read and cannot be written. Exact condition for whole documents."
  },
  {
   "property": "C07",
   "status": "partial",
   "theorems": [
    "GP.C07_contour_panics_iff",
    "GP.C07_contour_no_err",
    "GP.C07_panics_iff",
    "GP.C07_false",
    "GP.C07_partial"
   ],
   "note": "False of the code: a contour starting with move/line/curve that has a qcurve point panics. Exact condition for whole documents."
  },
  {
   "property": "C08",
   "status": "partial",
   "theorems": [
    "GP.C08_false",
    "GP.C08_dropped_iff",
    "GP.C08_outline",
    "GP.C08_partial",
    "GP.C08_file",
    "GP.C08_count"
   ],
   "note": "False of the code: contours that start with an off-curve point are dropped."
  },
  {
   "property": "C56",
   "status": "partial",
   "theorems": [
    "GP.C56_false",
    "GP.C56_partial",
    "GP.C56_controls_lost",
    "GP.C56_second_save_panics"
   ],
   "note": "False of the code: quadratic control points are lost on the first save and the second save panics."
  },
  {
   "property": "C27",
   "status": "proved",
   "theorems": [
    "GP.C27_closed",
    "GP.C27_involution",
    "GP.C27_panics_iff"
   ],
   "note": ""
  },
  {
   "property": "C28",
   "status": "proved",
   "theorems": [
    "GP.C28_open",
    "GP.C28_twice",
    "GP.C28_identity_iff",
    "GP.C28_single"
   ],
   "note": ""
  },
  {
   "property": "C29",
   "status": "partial",
   "theorems": [
    "GP.C29_false",
    "GP.C29_partial",
    "GP.C29_polygons_closed",
    "GP.C29_polygons_open",
    "GP.C29_exact_closed",
    "GP.C29_exact_open"
   ],
   "note": "False of the code for contours mixing lines and curves (C29_false); exact conditions in C29_exact_closed and C29_exact_open; the control polygons are always reversed."
  },
  {
   "property": "C30",
   "status": "partial",
   "theorems": [
    "GP.C30_false",
    "GP.C30_partial",
    "GP.C30_result",
    "GP.C30_no_handle_on_point",
    "GP.C30_unchanged",
    "GP.C30_handles",
    "GP.C30_types",
    "GP.C30_first_move",
    "GP.C30_two_passes",
    "GP.C30_idempotent_iff",
    "GP.C30_outline"
   ],
   "note": "One pass is not idempotent (C30_false); exact condition in C30_idempotent_iff; two passes always reach the fixed point."
  },
  {
   "property": "C31",
   "status": "proved",
   "theorems": [
    "GP.C31_inverse",
    "GP.C31_iterate",
    "GP.C31_cycle"
   ],
   "note": ""
  },
  {
   "property": "C32",
   "status": "proved",
   "theorems": [
    "GP.C32_out_of_range",
    "GP.C32_single",
    "GP.C32_succeeds_iff",
    "GP.C32_contour",
    "GP.C32_open",
    "GP.C32_open_short",
    "GP.C32_no_panic"
   ],
   "note": ""
  },
  {
   "property": "C33",
   "status": "proved",
   "theorems": [
    "GP.C33_local",
    "GP.C33_tolerance",
    "GP.C33_succeeds_iff",
    "GP.C33_no_panic",
    "GP.C33_open_ends",
    "GP.C33_inner"
   ],
   "note": ""
  },
  {
   "property": "C57",
   "status": "partial",
   "theorems": [
    "GP.C57_false",
    "GP.C57_false_code",
    "GP.C57_partial",
    "GP.C57_closed_ends"
   ],
   "note": "False of the code at both ends of a closed contour, which are judged by a neighbour's handle."
  },
  {
   "property": "C11",
   "status": "proved",
   "theorems": [
    "GP.C11_round_trip",
    "GP.C11_canonical",
    "GP.C11_accepts",
    "GP.C11_no_panic"
   ],
   "note": ""
  },
  {
   "property": "C12",
   "status": "proved",
   "theorems": [
    "GP.C12_round_trip",
    "GP.C12_accepts",
    "GP.C12_mending",
    "GP.C12_no_panic"
   ],
   "note": ""
  },
  {
   "property": "C13",
   "status": "proved",
   "theorems": [
    "GP.C13_round_trip",
    "GP.C13_stable"
   ],
   "note": ""
  },
  {
   "property": "C14",
   "status": "partial",
   "theorems": [
    "GP.C14_false",
    "GP.C14_partial",
    "GP.C14_accepts",
    "GP.C14_error"
   ],
   "note": "False of the code: text after a fourth comma is ignored and white space is rejected. Exact condition in C14_accepts."
  },
  {
   "property": "C15",
   "status": "proved",
   "theorems": [
    "GP.C15_accepts",
    "GP.C15_index",
    "GP.C15_non_empty"
   ],
   "note": ""
  },
  {
   "property": "C16",
   "status": "partial",
   "theorems": [
    "GP.C16_false",
    "GP.C16_partial",
    "GP.C16_panics_iff",
    "GP.C16_result",
    "GP.C16_bytes"
   ],
   "note": "False of the code: panics exactly if a control character follows a non-ASCII character (char index used as byte offset)."
  },
  {
   "property": "C17",
   "status": "proved",
   "theorems": [
    "GP.C17_injective"
   ],
   "note": ""
  },
  {
   "property": "C18",
   "status": "partial",
   "theorems": [
    "GP.C18_false",
    "GP.C18_partial",
    "GP.C18_exact"
   ],
   "note": "False of the code: Z gets no underscore, and a name may itself contain underscores. Exact condition on a name for it to collide with no other."
  },
  {
   "property": "C19",
   "status": "partial",
   "theorems": [
    "GP.C19_false",
    "GP.C19_partial",
    "GP.C19_sane",
    "GP.C19_same_file",
    "GP.C19_exact"
   ],
   "note": "The file name check is exact; the placement of component files fails for bases with a slash. C19_exact: which bases exactly."
  },
  {
   "property": "C42",
   "status": "proved",
   "theorems": [
    "GP.C42_accepted_iff",
    "GP.C42_result",
    "GP.C42_class"
   ],
   "note": ""
  },
  {
   "property": "C50",
   "status": "proved",
   "theorems": [
    "GP.C50_point_type",
    "GP.C50_point_type_iff",
    "GP.C50_point_type_other",
    "GP.C50_handle",
    "GP.C50_letters",
    "GP.C50_of_handle",
    "GP.C50_opposite",
    "GP.C50_join",
    "GP.C50_interpolation",
    "GP.C50_cap",
    "GP.C50_custom_lost"
   ],
   "note": "The exact set of accepted texts for each enumeration. The file name of a custom cap is not kept by the type."
  },
  {
   "property": "C52",
   "status": "proved",
   "theorems": [
    "GP.C52_coordinate",
    "GP.C52_numerically_equal",
    "GP.C52_integer",
    "GP.C52_plain"
   ],
   "note": ""
  },
  {
   "property": "C54",
   "status": "partial",
   "theorems": [
    "GP.C54_false",
    "GP.C54_partial",
    "GP.C54_point_iff",
    "GP.C54_file_point_iff"
   ],
   "note": "False of the code for Point (NaN y and subnormal x pass); holds for GlifPoint."
  },
  {
   "property": "C55",
   "status": "proved",
   "theorems": [
    "GP.C55_file",
    "GP.C55_rounds",
    "GP.C55_local",
    "GP.C55_idempotent"
   ],
   "note": ""
  },
  {
   "property": "C09",
   "status": "proved",
   "theorems": [
    "GP.C09_same_document",
    "GP.C09_order"
   ],
   "note": ""
  },
  {
   "property": "C10",
   "status": "proved",
   "theorems": [
    "GP.C10_unknown_ignored"
   ],
   "note": ""
  },
  {
   "property": "C58",
   "status": "proved",
   "theorems": [
    "GP.C58_error_iff"
   ],
   "note": ""
  },
  {
   "property": "C01",
   "status": "partial",
   "theorems": [
    "GP.C01_exact",
    "GP.C01_partial",
    "GP.C01_false"
   ],
   "note": "Holds for all glyphs with move/line/curve contours; false for quadratic contours, which come back unwritable. C01_exact says exactly which glyphs come back."
  },
  {
   "property": "C02",
   "status": "partial",
   "theorems": [
    "GP.C02_exact",
    "GP.C02_ever",
    "GP.C02_partial",
    "GP.C02_false",
    "GP.C02_fixed",
    "GP.C02_step_fixed",
    "GP.C02_step_rotated",
    "GP.C02_settles",
    "GP.C02_all_curve"
   ],
   "note": "Holds for all glyphs with move/line/curve contours; false for quadratic contours, whose second save panics. C02_exact and C02_ever say exactly which glyphs can be saved again, and that those can be any number of times."
  },
  {
   "property": "C40",
   "status": "partial",
   "theorems": [
    "GP.C40_component",
    "GP.C40_image_partial",
    "GP.C40_false",
    "GP.C40_large_offset",
    "GP.C40_exact",
    "GP.C40_image_exact",
    "GP.C40_fonts"
   ],
   "note": "False of the code for the image colour, which is not written; coefficients keep their f32 value, not always their f64 value: C40_exact says when exactly, C40_fonts that only floats from 2^24 to 2^31 are affected."
  },
  {
   "property": "C41",
   "status": "proved",
   "theorems": [
    "GP.C41_guideline"
   ],
   "note": ""
  },
  {
   "property": "C43",
   "status": "partial",
   "theorems": [
    "GP.C43_exact",
    "GP.C43_partial",
    "GP.C43_false"
   ],
   "note": "False of the code: a lib that plist does not take as a dictionary is dropped. C43_exact says exactly which are."
  },
  {
   "property": "C20",
   "status": "partial",
   "theorems": [
    "GP.C20_exact",
    "GP.C20_names_not_ok",
    "GP.C20_terminates",
    "GP.C20_cycle_not_ok",
    "GP.C20_cycles",
    "GP.C20_partial",
    "GP.C20_false"
   ],
   "note": "Proved for every font whose references determine files by name (no slash in a base name); with slashes an acyclic font can be reported cyclic (C20_false). C20_exact: the error comes exactly when a name comes back."
  },
  {
   "property": "C21",
   "status": "proved",
   "theorems": [
    "GP.C21_unfolding"
   ],
   "note": ""
  },
  {
   "property": "C22",
   "status": "partial",
   "theorems": [
    "GP.C22_exact",
    "GP.C22_two_levels",
    "GP.C22_order",
    "GP.C22_partial",
    "GP.C22_false"
   ],
   "note": "False of the code: components deeper than two levels are lost; exact description in C22_two_levels, exact condition in C22_exact, their order in C22_order."
  },
  {
   "property": "C23",
   "status": "partial",
   "theorems": [
    "GP.C23_exact",
    "GP.C23_partial",
    "GP.C23_false",
    "GP.C23_own_contours_lost",
    "GP.C23_no_components",
    "GP.C23_twice"
   ],
   "note": "False of the code: the glyph's own contours are replaced."
  },
  {
   "property": "C24",
   "status": "proved",
   "theorems": [
    "GP.C24_matrices"
   ],
   "note": ""
  },
  {
   "property": "C25",
   "status": "proved",
   "theorems": [
    "GP.C25_other_fields",
    "GP.C25_fails"
   ],
   "note": ""
  },
  {
   "property": "C26",
   "status": "partial",
   "theorems": [
    "GP.C26_partial",
    "GP.C26_false",
    "GP.C26_one_each",
    "GP.C26_rectangle",
    "GP.C26_exact"
   ],
   "note": "False of the code: the rectangle is taken before the matrices are applied. C26_exact says exactly when the rectangle contains what is drawn; C26_rectangle says which points it is the smallest rectangle around."
  },
  {
   "property": "C39",
   "status": "proved",
   "theorems": [
    "GP.C39_same_map",
    "GP.C39_identity",
    "GP.C39_default_matrix",
    "GP.C39_product",
    "GP.C39_integers"
   ],
   "note": "Composition proved over any commutative ring and, for integers up to 2^24, for the floating point result."
  },
  {
   "property": "C34",
   "status": "partial",
   "theorems": [
    "GP.C34_partial",
    "GP.C34_exact",
    "GP.C34_false",
    "GP.C34_lines_become_curves"
   ],
   "note": "Proved for every outline with at least one contour; false of the code for the outline without contours, which comes back with an empty contour. Closed contours of lines are shown not to come back."
  },
  {
   "property": "C35",
   "status": "proved",
   "theorems": [
    "GP.C35_well_formed",
    "GP.C35_length",
    "GP.C35_outline",
    "GP.C35_every",
    "GP.C35_two",
    "GP.C35_one"
   ],
   "note": ""
  },
  {
   "property": "C36",
   "status": "partial",
   "theorems": [
    "GP.C36_partial",
    "GP.C36_partial_open",
    "GP.C36_closed_exact",
    "GP.C36_open_exact",
    "GP.C36_false",
    "GP.C36_false_open"
   ],
   "note": "False of the code: a curve point that follows a line point is left out, and open contours lose points unless they have just two points and are curved. C36_closed_exact and C36_open_exact are the exact conditions for contours whose points are at different places."
  },
  {
   "property": "C37",
   "status": "partial",
   "theorems": [
    "GP.C37_exact",
    "GP.C37_partial",
    "GP.C37_false",
    "GP.C37_false_close"
   ],
   "note": "False of the code; the exact set of paths that panic is determined by C37_exact."
  },
  {
   "property": "C38",
   "status": "proved",
   "theorems": [
    "GP.C38_same_curve",
    "GP.C38_ends",
    "GP.C38_unique"
   ],
   "note": "Over any commutative ring with an element k such that 3k = 2."
  },
  {
   "property": "C53",
   "status": "partial",
   "theorems": [
    "GP.C53_exact",
    "GP.C53_partial",
    "GP.C53_partial_outline",
    "GP.C53_partial_curves",
    "GP.C53_partial_lines",
    "GP.C53_false",
    "GP.C53_false_single",
    "GP.C53_false_duplicate"
   ],
   "note": "False of the code for contours that begin with a curve point followed by a line point, for single curve points, and for a last point on top of the first."
  },
  {
   "property": "C44",
   "status": "partial",
   "theorems": [
    "GP.C44_agrees",
    "GP.C44_calls_safe",
    "GP.C44_partial",
    "GP.C44_exact",
    "GP.C44_false",
    "GP.C44_load",
    "GP.C44_decode",
    "GP.C44_decode_twice",
    "GP.C44_stale",
    "GP.C44_pixels"
   ],
   "note": "False of the code: data() panics once a decode has been attempted. State and data agree after any sequence of calls; the exact set of panicking calls is determined. The image decoder is a parameter."
  },
  {
   "property": "C59",
   "status": "proved",
   "theorems": [
    "GP.C59_signature",
    "GP.C59_short"
   ],
   "note": "All byte sequences."
  },
  {
   "property": "C60",
   "status": "proved",
   "theorems": [
    "GP.C60_image",
    "GP.C60_file",
    "GP.C60_loaded",
    "GP.C60_errors",
    "GP.C60_elsewhere"
   ],
   "note": "The file system is a parameter; symbolic links are not modelled."
  },
  {
   "property": "C46",
   "status": "proved",
   "theorems": [
    "GP.C46_detach",
    "GP.C46_attach",
    "GP.C46_attached",
    "GP.C46_identity",
    "GP.C46_failed",
    "GP.C46_glyph_attach",
    "GP.C46_glyph_errors",
    "GP.C46_glyph_failed",
    "GP.C46_glyph_attached",
    "GP.C46_glyph_identity"
   ],
   "note": "For outlines and for whole glyphs."
  },
  {
   "property": "C47",
   "status": "partial",
   "theorems": [
    "GP.C47_upgrade",
    "GP.C47_exact",
    "GP.C47_partial",
    "GP.C47_false",
    "GP.C47_clean",
    "GP.C47_downgrade",
    "GP.C47_up_down",
    "GP.C47_down_up",
    "GP.C47_false_operation",
    "GP.C47_panics",
    "GP.C47_false_images"
   ],
   "note": "False of the code: the lib is lost, a missing outline comes back as an empty one, and downgrading succeeds with operations, which it drops."
  },
  {
   "property": "C48",
   "status": "partial",
   "theorems": [
    "GP.C48_points",
    "GP.C48_widths",
    "GP.C48_none",
    "GP.C48_exact",
    "GP.C48_outcome",
    "GP.C48_partial",
    "GP.C48_false",
    "GP.C48_sub_panics",
    "GP.C48_cubic_wrapper",
    "GP.C48_reverse_handles"
   ],
   "note": "False of the code for every constant; the surplus after every edit is determined by C48_exact."
  },
  {
   "property": "C45",
   "status": "proved",
   "theorems": [
    "GP.C45_merge",
    "GP.C45_no_duplicate",
    "GP.C45_idempotent",
    "GP.C45_panics"
   ],
   "note": ""
  },
  {
   "property": "C49",
   "status": "partial",
   "theorems": [
    "GP.C49_is_open",
    "GP.C49_set_open",
    "GP.C49_set_closed",
    "GP.C49_set_closed_partial",
    "GP.C49_false_single",
    "GP.C49_panics",
    "GP.C49_sub",
    "GP.C49_append",
    "GP.C49_halves",
    "GP.C49_halves_partial",
    "GP.C49_stroked",
    "GP.C49_false_stroked"
   ],
   "note": "False of the code for set_closed on a single cubic point, and for slicing and appending contours with width handles; all else holds."
  },
  {
   "property": "C51",
   "status": "partial",
   "theorems": [
    "GP.C51_partial",
    "GP.C51_rest",
    "GP.C51_no_handles",
    "GP.C51_false"
   ],
   "note": "Exact for coordinates on a common binary grid (whole numbers up to 2^22, and any scaling of them by powers of two); false in general because of rounding."
  },
  {
   "property": "C61",
   "status": "proved",
   "theorems": [
    "GP.C61_iterator"
   ],
   "note": ""
  },
  {
   "property": "C62",
   "status": "partial",
   "theorems": [
    "GP.C62_set_get",
    "GP.C62_handles",
    "GP.C62_position",
    "GP.C62_has_partial",
    "GP.C62_exact",
    "GP.C62_false"
   ],
   "note": "False of the code only for has_handle(Neither)."
  },
  {
   "property": "C63",
   "status": "proved",
   "theorems": [
    "GP.C63_next",
    "GP.C63_beyond"
   ],
   "note": ""
  },
  {
   "property": "C64",
   "status": "partial",
   "theorems": [
    "GP.C64_listed",
    "GP.C64_partial",
    "GP.C64_false",
    "GP.C64_false_lists",
    "GP.C64_directories",
    "GP.C64_exact"
   ],
   "note": "False of the code if the first layer is hidden or not called Layer 0, if another layer has that name or public.default, or if names collide ignoring case. Exact condition."
  },
  {
   "property": "C65",
   "status": "proved",
   "theorems": [
    "GP.C65_colour"
   ],
   "note": ""
  },
  {
   "property": "C66",
   "status": "proved",
   "theorems": [
    "GP.C66_open",
    "GP.C66_outline",
    "GP.C66_lone_move",
    "GP.C66_nan"
   ],
   "note": "C66_lone_move and C66_nan say what happens outside the domain: a trailing lone move point is lost, a NaN first point is doubled."
  },
  {
   "property": "C67",
   "status": "proved",
   "theorems": [
    "GP.C67_panics_iff",
    "GP.C67_ok",
    "GP.C67_loop"
   ],
   "note": "C67_loop is a concrete path that panics."
  },
  {
   "property": "C68",
   "status": "proved",
   "theorems": [
    "GP.C68_points",
    "GP.C68_conics",
    "GP.C68_all"
   ],
   "note": "C68_conics, C68_all: the approximation of a conic is a parameter, assumed to begin and end where the conic does."
  },
  {
   "property": "C69",
   "status": "proved",
   "theorems": [
    "GP.C69_len",
    "GP.C69_simplify",
    "GP.C69_one_contour"
   ],
   "note": ""
  },
  {
   "property": "C70",
   "status": "partial",
   "theorems": [
    "GP.C70_partial",
    "GP.C70_partial_open",
    "GP.C70_exact",
    "GP.C70_false"
   ],
   "note": "False of the code: the MoveTo of a closed contour carries the type of its point and is never valid; all other operations are. C70_exact: an operation is valid if and only if its coordinates are clean and, if it is a MoveTo, the contour is open."
  },
  {
   "property": "C71",
   "status": "proved",
   "theorems": [
    "GP.C71_cubic",
    "GP.C71_panics_iff",
    "GP.C71_upgrade"
   ],
   "note": ""
  },
  {
   "property": "C72",
   "status": "proved",
   "theorems": [
    "GP.C72_combined",
    "GP.C72_transforms"
   ],
   "note": ""
  },
  {
   "property": "C73",
   "status": "partial",
   "theorems": [
    "GP.C73_points",
    "GP.C73_skia_matrix",
    "GP.C73_set_matrix",
    "GP.C73_set_matrix_skia",
    "GP.C73_false"
   ],
   "note": "False of the code for set_matrix with coefficients that are not f32s (C73_set_matrix: exactly then), such as integers beyond 2^24."
  },
  {
   "property": "C74",
   "status": "partial",
   "theorems": [
    "GP.C74_exact",
    "GP.C74_valid",
    "GP.C74_partial",
    "GP.C74_false"
   ],
   "note": "False of the code: the first and last points of curves change places."
  },
  {
   "property": "C75",
   "status": "proved",
   "theorems": [
    "GP.C75_handle_points",
    "GP.C75_explicit",
    "GP.C75_point",
    "GP.C75_glif_point"
   ],
   "note": ""
  },
  {
   "property": "C76",
   "status": "proved",
   "theorems": [
    "GP.C76_array",
    "GP.C76_color",
    "GP.C76_plist"
   ],
   "note": ""
  },
  {
   "property": "C77",
   "status": "partial",
   "theorems": [
    "GP.C77_plist",
    "GP.C77_determines",
    "GP.C77_builders",
    "GP.C77_exact",
    "GP.C77_false"
   ],
   "note": "False of the code for identifiers, which are not in the property list."
  },
  {
   "property": "C78",
   "status": "proved",
   "theorems": [
    "GP.C78_views",
    "GP.C78_points",
    "GP.C78_modify",
    "GP.C78_setters"
   ],
   "note": ""
  },
  {
   "property": "C79",
   "status": "proved",
   "theorems": [
    "GP.C79_number",
    "GP.C79_float",
    "GP.C79_accepted",
    "GP.C79_exact"
   ],
   "note": "Of the model of integer_or_float and of Rust's number parsing; both are dependencies, see DESIGN.md."
  },
  {
   "property": "C80",
   "status": "proved",
   "theorems": [
    "GP.C80_same",
    "GP.C80_same_level",
    "GP.C80_accepts"
   ],
   "note": "Whether one pedantry accepts all another accepts is decided exactly."
  },
  {
   "property": "C81",
   "status": "partial",
   "theorems": [
    "GP.C81_partial",
    "GP.C81_false"
   ],
   "note": "Anchors are whole at the font-file levels. Points are not: a point at 0.5 is read as such at every pedantry."
  },
  {
   "property": "C82",
   "status": "proved",
   "theorems": [
    "GP.C82_file",
    "GP.C82_font",
    "GP.C82_font_exact",
    "GP.C82_font_case",
    "GP.C82_components"
   ],
   "note": "xmltree's printing and parsing are a parameter; the hypothesis Prints says that what is printed parses to the same document. The file system is a map from paths to places."
  },
  {
   "property": "C83",
   "status": "proved",
   "theorems": [
    "GP.C83_from_text",
    "GP.C83_into_text",
    "GP.C83_round_trip"
   ],
   "note": "xmltree as in C82."
  },
  {
   "property": "C84",
   "status": "proved",
   "theorems": [
    "GP.C84_resolves"
   ],
   "note": "xmltree and the file system as in C82; the file system holds finitely many files."
  },
  {
   "property": "C85",
   "status": "proved",
   "theorems": [
    "GP.C85_says",
    "GP.C85_determined",
    "GP.C85_exact"
   ],
   "note": "plist's conversion of lib is a parameter."
  },
  {
   "property": "C86",
   "status": "partial",
   "theorems": [
    "GP.C86_partial",
    "GP.C86_exact",
    "GP.C86_false",
    "GP.C86_segments"
   ],
   "note": "Proved if at most two off-curve points stand before each on-curve point. With three, the third becomes a handle of the next segment; C86_exact says which point becomes which handle for any number of them."
  },
  {
   "property": "C87",
   "status": "proved",
   "theorems": [
    "GP.C87_quadratic",
    "GP.C86_segments"
   ],
   "note": "How the half-way point is computed is a parameter."
  },
  {
   "property": "C88",
   "status": "proved",
   "theorems": [
    "GP.C88_written",
    "GP.C88_exact",
    "GP.C88_needed"
   ],
   "note": "C88_exact: what is written is of the format if and only if the glyph is formed as the format asks and all numbers that are written are finite. Left out of the format: what is inside lib, and that no two contours or code points are equal. C88_needed: a glyph that does not fit."
  },
  {
   "property": "C89",
   "status": "partial",
   "theorems": [
    "GP.C89_partial",
    "GP.C89_false"
   ],
   "note": "Proved exactly when: the width can be read, guidelines have both coordinates, anchors are integers unless everything is mended, no contour mixes lines or curves with a later quadratic segment. A guideline with one coordinate is refused; a mixed contour makes the program panic."
  },
  {
   "property": "C90",
   "status": "partial",
   "theorems": [
    "GP.C90_partial",
    "GP.C90_exact",
    "GP.C90_false"
   ],
   "note": "Proved if no number is beyond the largest f32. Such a number is written as inf. C90_exact: a document of the format stays so if and only if all numbers that come to be written are finite."
  },
  {
   "property": "C91",
   "status": "proved",
   "theorems": [
    "GP.C91_accurate",
    "GP.C91_fonts",
    "GP.C91_needed"
   ],
   "note": "Values of floats as rational numbers. C91_needed: the term for the rounding to f32 cannot be left out."
  },
  {
   "property": "C92",
   "status": "proved",
   "theorems": [
    "GP.C92_accurate"
   ],
   "note": "Bounds the error that makes C51 false in general."
  },
  {
   "property": "C93",
   "status": "proved",
   "theorems": [
    "GP.C93_accurate"
   ],
   "note": "In the f32 arithmetic of the program; C38 is the statement over exact arithmetic."
  },
  {
   "property": "C94",
   "status": "partial",
   "theorems": [
    "GP.C94_exact",
    "GP.C94_history",
    "GP.C94_partial",
    "GP.C94_written",
    "GP.C94_refigure",
    "GP.C94_false",
    "GP.C94_flattened",
    "GP.C94_kurbo",
    "GP.C94_skia"
   ],
   "note": "False of the code: refiguring makes the point of a one-point contour off-curve, and writing then panics; the outline of an empty kurbo path is one empty contour, which cannot be written. C94_exact says of every edit when its result can be saved."
  },
  {
   "property": "C95",
   "status": "proved",
   "theorems": [
    "GP.C95_written"
   ],
   "note": "Independent of the reader. The printing of the document as text is the parameter XmlIO, that of plist dictionaries PlistIO."
  },
  {
   "property": "C96",
   "status": "partial",
   "theorems": [
    "GP.C96_write",
    "GP.C96_skia",
    "GP.C96_names",
    "GP.C96_read",
    "GP.C96_partial",
    "GP.C96_false"
   ],
   "note": "True of writing and of Skia paths. A debug build refuses to reverse an open contour with off-curve points at its end, which files can have, and panics for texts that are not names of handles: exact conditions. What convert_conic_to_quads returns (assertion src/outline/skia/from.rs 108) is a parameter."
  },
  {
   "property": "C97",
   "status": "partial",
   "theorems": [
    "GP.C97_document",
    "GP.C97_text",
    "GP.C97_partial",
    "GP.C97_prints",
    "GP.C97_control",
    "GP.C97_spoken",
    "GP.C97_resaved",
    "GP.C97_exact",
    "GP.C97_false"
   ],
   "note": "True of every document that XML can say, with any layout (C97_document), and so of glyphs whose strings are of XML characters and whose note is not blank. False of blank notes, and any text with a character that XML does not have is written to a file that cannot be read (C97_control). Tabs in attributes come back as spaces and carriage returns in notes as line feeds: C97_spoken says what comes back of any strings of XML characters, C97_exact which glyphs come back as they were; the lib is assumed to be sayable in XML there. The XML printer and parser are dependencies whose source is not in the sandbox: modelled after XML 1.0 (Model/XmlText)."
  },
  {
   "property": "C98",
   "status": "proved",
   "theorems": [
    "GP.C98_shortest",
    "GP.C98_shortest32",
    "GP.C98_float",
    "GP.C98_number",
    "GP.C98_file"
   ],
   "note": "C98_shortest: the text is the usual text of the one number that is read as this float, has fewest digits and is nearest, for every finite non-zero float of either precision. C98_file: anchors (unless the pedantry rounds them), guidelines, images, components, and all points of contours that do not begin with a qcurve point. Printing of floats is a function of the standard library, whose source is not in the sandbox: modelled (Float/Text) after its documented behaviour."
  },
  {
   "property": "C99",
   "status": "proved",
   "theorems": [
    "GP.C99_add",
    "GP.C99_sub",
    "GP.C99_mul",
    "GP.C99_div",
    "GP.C99_lt",
    "GP.C99_eq",
    "GP.C99_cast",
    "GP.C99_round",
    "GP.C99_i32",
    "GP.C99_u64",
    "GP.C99_neg",
    "GP.C99_int",
    "GP.C99_sqrt",
    "GP.C99_transform"
   ],
   "note": "Every operation is characterised by an equivalence, over rational numbers, written from the tables of the standard. C99_transform: the three rounded sums and products of each coordinate. NaN has no sign and no payload in the model."
  },
  {
   "property": "C100",
   "status": "proved",
   "theorems": [
    "GP.C100_glif",
    "GP.C100_lib",
    "GP.C100_component",
    "GP.C100_components",
    "GP.C100_types",
    "GP.C100_editor",
    "GP.C100_formats"
   ],
   "note": "Derives of serde are modelled from their documentation; the other crates' types (IntegerOrFloat, PathBuf, plist::Dictionary, the user's data) are parameters that survive by hypothesis. Widths below 2^64 and sets without repetition are what the Rust types say."
  },
  {
   "property": "C101",
   "status": "partial",
   "theorems": [
    "GP.C101_partial",
    "GP.C101_false"
   ],
   "note": "False of the code: filename is marked skip_serializing but not skip_deserializing, so no editor glyph can be read again from a format without names of fields. Proved for all formats with names."
  },
  {
   "property": "C102",
   "status": "proved",
   "theorems": [
    "GP.C102_glifPoint",
    "GP.C102_point",
    "GP.C102_qpoint",
    "GP.C102_hyperPoint",
    "GP.C102_color",
    "GP.C102_anchor",
    "GP.C102_glifAnchor",
    "GP.C102_guidelinePoint",
    "GP.C102_guideline",
    "GP.C102_glifComponent",
    "GP.C102_glifComponents",
    "GP.C102_glifImage",
    "GP.C102_componentRect",
    "GP.C102_component",
    "GP.C102_vwsHandle",
    "GP.C102_vws",
    "GP.C102_dashCull",
    "GP.C102_dash",
    "GP.C102_pap",
    "GP.C102_hyperInner",
    "GP.C102_layer",
    "GP.C102_entry",
    "GP.C102_glif",
    "GP.C102_contour",
    "GP.C102_edited",
    "GP.C102_enums",
    "GP.C102_handle",
    "GP.C102_subdivide",
    "GP.C102_culling",
    "GP.C102_lib",
    "GP.C102_op",
    "GP.C102_inner",
    "GP.C102_affine",
    "GP.C102_pointData",
    "GP.C102_leaves",
    "GP.C102_containers",
    "GP.C102_set"
   ],
   "note": "One equivalence per type. Nested values are described by the equivalence of their type; recursion through patterns and histories by unfolding once."
  },
  {
   "property": "C103",
   "status": "partial",
   "theorems": [
    "GP.C103_false",
    "GP.C103_partial",
    "GP.C103_exact"
   ],
   "note": "False of the code: serde_impl.rs takes any String, TryFrom is not called. Proved: exactly the texts are taken; what was checked before stays so."
  },
  {
   "property": "C104",
   "status": "partial",
   "theorems": [
    "GP.C104_first",
    "GP.C104_text",
    "GP.C104_file",
    "GP.C104_partial",
    "GP.C104_false"
   ],
   "note": "C104_first: the error is exactly that of the first unmet requirement, for every document; C104_text and C104_file: and of every text and file. False of the code: for a bad y of a guideline the message speaks of x (read.rs 202). The messages about colours, anchors that are not integers and numbers that are no characters name no attribute either."
  },
  {
   "property": "C105",
   "status": "proved",
   "theorems": [
    "GP.C105_sound",
    "GP.C105_complete",
    "GP.C105_missing",
    "GP.C105_nan",
    "GP.C105_fonts",
    "GP.C105_at_handle"
   ],
   "note": "Over exact rationals, for all finite f32 coordinates. C105_fonts: for coordinates up to 32768 check_smooth decides whether the distance is 0.01, but for 0.00000001. kurbo's Line::nearest is modelled from its published source (assumption in DESIGN.md)."
  },
  {
   "property": "C106",
   "status": "proved",
   "theorems": [
    "GP.C106_chain",
    "GP.C106_bound",
    "GP.C106_flattened",
    "GP.C106_fonts"
   ],
   "note": "Over exact rationals, for chains of any length. Points that leave the bound B on their exact way are not covered. Which components contribute at all is C22."
  },
  {
   "property": "C107",
   "status": "partial",
   "theorems": [
    "GP.C107_curves",
    "GP.C107_lines",
    "GP.C107_closed_exact",
    "GP.C107_open_exact",
    "GP.C107_false"
   ],
   "note": "False for the code as it is: a contour with lines and curves is drawn with a line where a curve should be and the reverse (C107_false). Exactly (points in different places): a closed contour is drawn right iff it has only curves or only lines, an open one iff it is a single curve."
  },
  {
   "property": "C108",
   "status": "partial",
   "theorems": [
    "GP.C108_partial",
    "GP.C108_exact",
    "GP.C108_false",
    "GP.C108_open",
    "GP.C108_false_open",
    "GP.C108_twice"
   ],
   "note": "False of the code: the points are reversed but their handles are not exchanged, and an open contour becomes closed. Exactly (points in different places): drawn backwards iff every point has its two handles in the same place; stays open iff it also ends in a move point."
  },
  {
   "property": "C109",
   "status": "partial",
   "theorems": [
    "GP.C109_partial",
    "GP.C109_exact",
    "GP.C109_false"
   ],
   "note": "False of the code: a closed contour that begins with a line and is closed by a curve loses that curve (exactly those whose closing curve is not straight). Loops panic (C67); contours that begin or end at a NaN and lone moves are left out."
  },
  {
   "property": "C110",
   "status": "proved",
   "theorems": [
    "GP.C110_draws"
   ],
   "note": ""
  },
  {
   "property": "C111",
   "status": "partial",
   "theorems": [
    "GP.C111_partial",
    "GP.C111_exact",
    "GP.C111_false"
   ],
   "note": "False of the code: if the contour ends with an off-curve point in the file, the closing curve is drawn with the point half-way back to the first point as its control point. Exactly those are drawn wrong, unless the two points coincide."
  },
  {
   "property": "C112",
   "status": "partial",
   "theorems": [
    "GP.C112_partial",
    "GP.C112_exact",
    "GP.C112_false"
   ],
   "note": "False of the code: a curve with one off-curve point is drawn as a cubic curve whose second control point is its end. Exactly those are drawn wrong, unless the two have the same control polygon."
  },
  {
   "property": "C113",
   "status": "proved",
   "theorems": [
    "GP.C113_saved"
   ],
   "note": "Lone move points, which draw nothing, are not saved (C03_lone_move)."
  },
  {
   "property": "C114",
   "status": "proved",
   "theorems": [
    "GP.C114_path",
    "GP.C114_contour",
    "GP.C114_flattened",
    "GP.C114_fonts"
   ],
   "note": "Which components contribute is C22: those deeper than two levels are lost. Points that leave the bound B on their exact way are not covered by the bound."
  },
  {
   "property": "C115",
   "status": "partial",
   "theorems": [
    "GP.C115_exact",
    "GP.C115_partial",
    "GP.C115_false"
   ],
   "note": "False as stated: segments with one off-curve point are drawn as other curves (C112_exact), and quadratic contours that end with an off-curve point close differently (C111_exact). C115_exact says of every contour when it is drawn as the file says."
  },
  {
   "property": "C116",
   "status": "partial",
   "theorems": [
    "GP.C116_exact",
    "GP.C116_partial",
    "GP.C116_false",
    "GP.C116_upgrade",
    "GP.C116_strings"
   ],
   "note": "False of the code: errors in reading and in writing XML have the same messages. Exactly these are confused, and system errors that print alike (how they are printed is a parameter)."
  },
  {
   "property": "C117",
   "status": "partial",
   "theorems": [
    "GP.C117_exact",
    "GP.C117_partial",
    "GP.C117_short",
    "GP.C117_line",
    "GP.C117_false",
    "GP.C117_false_ends",
    "GP.C117_false_continues"
   ],
   "note": "False of the code. Exactly these subpaths are not drawn: open ones that begin with a curve (its first control point is lost), open ones that end where they start, and closed ones without lines and curves. Subpaths that begin without MoveTo after ClosePath are joined to the one before (C117_false_continues)."
  },
  {
   "property": "C118",
   "status": "partial",
   "theorems": [
    "GP.C118_exact",
    "GP.C118_partial",
    "GP.C118_false"
   ],
   "note": "False of the code for contours with lines and curves. Proved for every outline whose contours have only curves, or only lines and no second point where they start, and, for closed contours whose points are in different places, exactly which ones draw the same; types and handles are C34."
  },
  {
   "property": "C119",
   "status": "partial",
   "theorems": [
    "GP.C119_split",
    "GP.C119_count",
    "GP.C119_partial",
    "GP.C119_made",
    "GP.C119_false"
   ],
   "note": "False of the code: the empty list and a lone Close count as one contour, and a Close that closes nothing panics. Proved what the split gives for every list whose Closes close something, what every count answers and when it panics, that a list beginning with a MoveTo is valid exactly with no other MoveTo, and that lists made from contours are valid."
  },
  {
   "property": "C120",
   "status": "partial",
   "theorems": [
    "GP.C120_kept",
    "GP.C120_drawn",
    "GP.C120_same",
    "GP.C120_saved",
    "GP.C120_exact",
    "GP.C120_partial",
    "GP.C120_false"
   ],
   "note": "False of the code: the conversion to Glif reads the first layer only, so the flattened contours are lost, and the components are gone already. Proved what flattening in the editor keeps and stores, that it agrees with flattening the Glif in success, contours, rectangles and errors, what is saved, and exactly when nothing is lost."
  },
  {
   "property": "C121",
   "status": "proved",
   "theorems": [
    "GP.C121_exact",
    "GP.C121_font"
   ],
   "note": "Flattening itself loses what C22 and C23 say. A width is a u64."
  },
  {
   "property": "C122",
   "status": "partial",
   "theorems": [
    "GP.C122_exact",
    "GP.C122_false",
    "GP.C122_partial",
    "GP.C122_curves",
    "GP.C122_component",
    "GP.C122_editor",
    "GP.C122_editor_points",
    "GP.C122_debug"
   ],
   "note": "The code violates the statement: `Point::new` makes an off-curve point, and a contour of those cannot be written; a default editor glyph has no layer and cannot be turned back. C122_exact says which contours can be written. GlifComponent::default, unlike new, moves every point to the origin (C122_component)."
  },
  {
   "property": "C123",
   "status": "proved",
   "theorems": [
    "GP.C123_contours",
    "GP.C123_saved",
    "GP.C123_saved_iff",
    "GP.C123_thrice"
   ],
   "note": "Release build; C96 has the debug assertions of reversal."
  },
  {
   "property": "C124",
   "status": "partial",
   "theorems": [
    "GP.C124_name",
    "GP.C124_smooth_partial",
    "GP.C124_smooth_exact",
    "GP.C124_false"
   ],
   "note": "The code violates the statement: quadratic and hyperbezier points have a smoothness that can neither be read nor set. Exactly the cubic points are right."
  },
  {
   "property": "C125",
   "status": "partial",
   "theorems": [
    "GP.C125_points",
    "GP.C125_exact",
    "GP.C125_false",
    "GP.C125_partial",
    "GP.C125_set"
   ],
   "note": "The code violates the statement for integers of more than 24 bits in a file; C125_exact says which ones are kept."
  },
  {
   "property": "C126",
   "status": "partial",
   "theorems": [
    "GP.C126_resolved",
    "GP.C126_self",
    "GP.C126_partial",
    "GP.C126_false"
   ],
   "note": "The code violates the statement when a reference contains a slash: the same name is then another glyph in another directory. Proved for references without slashes; the glyph's own components are covered by C126_self."
  },
  {
   "property": "C127",
   "status": "partial",
   "theorems": [
    "GP.C127_lib",
    "GP.C127_exact",
    "GP.C127_twice",
    "GP.C127_partial",
    "GP.C127_glyph",
    "GP.C127_control",
    "GP.C127_returns",
    "GP.C127_all",
    "GP.C127_glyphs",
    "GP.C127_false",
    "GP.C127_keys_false"
   ],
   "note": "The code violates the statement: strings and keys of only white space come back empty, two such keys become one, carriage returns become line feeds, and a lib with a character that XML does not have is left out whole. C127_exact and C127_all say which dictionaries come back as themselves, C127_glyphs which glyphs come back with theirs; nothing more is lost by a second save (C127_twice). The plist and XML libraries are dependencies whose source is not in the sandbox: modelled after the published formats (Model/Plist, Model/XmlText)."
  },
  {
   "property": "C128",
   "status": "partial",
   "theorems": [
    "GP.C128_partial",
    "GP.C128_false"
   ],
   "note": "The code violates the statement: handles are not looked at, so a curve leaves the rectangle (C128_false). It holds for contours of lines and for curves whose handles are in the rectangle. Components that are moved are the subject of C26."
  },
  {
   "property": "C129",
   "status": "partial",
   "theorems": [
    "GP.C129_delete_open",
    "GP.C129_delete_last",
    "GP.C129_delete_closed",
    "GP.C129_delete_first",
    "GP.C129_insert_open",
    "GP.C129_insert_closed",
    "GP.C129_sub_partial",
    "GP.C129_append_partial",
    "GP.C129_set_open",
    "GP.C129_set_closed",
    "GP.C129_close_again",
    "GP.C129_open_delete",
    "GP.C129_open_sub",
    "GP.C129_open_append",
    "GP.C129_delete_false",
    "GP.C129_sub_false",
    "GP.C129_append_false"
   ],
   "note": "The code violates the statement: deleting the first point of an open contour closes it (C129_delete_false), so does taking a part that does not begin there (C129_sub_false), and appending an open contour loses a piece, since its move point is not drawn to (C129_append_false). These hold of every such contour. Everything else holds: C129_delete_*, C129_insert_*, C129_sub_partial, C129_append_partial, and C129_open_* say exactly when a contour stays open. Opening takes one piece away (C129_set_open) and closing adds a curve (C129_set_closed), also where there is a line already, which is left as it is drawn only if the handles there are colocated (C129_close_again)."
  },
  {
   "property": "C130",
   "status": "proved",
   "theorems": [
    "GP.C130_tint",
    "GP.C130_rest"
   ],
   "note": "Decoding, turning to grey and the product of a byte and a component are parameters; assumed of the first two is only that bitmaps have four bytes for each pixel and grey ones the size of the original."
  },
  {
   "property": "C131",
   "status": "partial",
   "theorems": [
    "GP.C131_partial",
    "GP.C131_exact",
    "GP.C131_insert",
    "GP.C131_delete",
    "GP.C131_points",
    "GP.C131_append",
    "GP.C131_reverse",
    "GP.C131_open",
    "GP.C131_close",
    "GP.C131_false"
   ],
   "note": "The code violates the statement: of every stroked contour with as many width handles as points the last point can be deleted, but inserting it again panics (C131_false); elsewhere the width handle of the point is replaced by the next one; what is cut off leaves one handle too many; and closing a contour makes it end in a curve. C131_exact says exactly when each edit is undone, C131_partial that any history of such edits is taken back; insertions and reversals always are, and the points are in any case (C131_points, C131_append)."
  },
  {
   "property": "C132",
   "status": "partial",
   "theorems": [
    "GP.C132_edits",
    "GP.C132_skia",
    "GP.C132_matrix",
    "GP.C132_refigure_exact",
    "GP.C132_refigure_false"
   ],
   "note": "The code violates the statement for refiguring: a matrix that puts a handle on its point makes a line of what stays a curve if it is refigured before (C132_refigure_false); C132_refigure_exact says exactly when it commutes. For the other edits and for drawing it holds without exception, for any map of the plane: C132_edits, C132_skia; C132_matrix says that matrices are such maps."
  },
  {
   "property": "C133",
   "status": "proved",
   "theorems": [
    "GP.C133_drawn",
    "GP.C133_text"
   ],
   "note": "From memory through the files to the flattened outline. Which nodes flattening visits at all is C22, the loss of the glyph's own contours C23, matrices with floats between 2^24 and 2^31 C40_large_offset, and the distance of computed from exact places C106."
  },
  {
   "property": "C134",
   "status": "proved",
   "theorems": [
    "GP.C134_local",
    "GP.C134_read",
    "GP.C134_needed",
    "GP.C134_write",
    "GP.C134_font"
   ],
   "note": "Also the files of components nested deeper than flattening draws (C22) are read."
  },
  {
   "property": "C135",
   "status": "proved",
   "theorems": [
    "GP.C135_append",
    "GP.C135_editor",
    "GP.C135_order"
   ],
   "note": ""
  },
  {
   "property": "C136",
   "status": "proved",
   "theorems": [
    "GP.C136_renamed",
    "GP.C136_text"
   ],
   "note": "C136_text for the concrete XML printer and parser. Names with slashes lead to other directories (C20_false)."
  },
  {
   "property": "C137",
   "status": "proved",
   "theorems": [
    "GP.C137_period",
    "GP.C137_settles",
    "GP.C137_exact"
   ],
   "note": "For the concrete XML printer and parser (C97). That the text of a contour of curve points never comes to rest is the moving start of C02."
  },
  {
   "property": "C138",
   "status": "proved",
   "theorems": [
    "GP.C138_write",
    "GP.C138_read",
    "GP.C138_edit",
    "GP.C138_smooth",
    "GP.C138_draw",
    "GP.C138_flatten"
   ],
   "note": "Validity (C54) is the one thing that depends on the data."
  },
  {
   "property": "C139",
   "status": "partial",
   "theorems": [
    "GP.C139_exact",
    "GP.C139_partial",
    "GP.C139_written_exact",
    "GP.C139_written",
    "GP.C139_read",
    "GP.C139_quadratic",
    "GP.C139_saved",
    "GP.C139_matrix",
    "GP.C139_false"
   ],
   "note": "False of the code: a matrix can make the second coordinate subnormal, and a valid point (whose second coordinate may be NaN) can be written as an invalid one. Exact conditions for all other edits and for writing; a sufficient condition for matrices.  Reading is for contours of lines and cubic curves, and for quadratic ones whose half-way points are clean."
  },
  {
   "property": "C140",
   "status": "proved",
   "theorems": [
    "GP.C140_parse",
    "GP.C140_printed",
    "GP.C140_alike",
    "GP.C140_unambiguous",
    "GP.C140_saved",
    "GP.C140_exact",
    "GP.C140_files"
   ],
   "note": "The parser is the model of what xmltree is assumed to do (Model/XmlText): its source is not in the sandbox."
  },
  {
   "property": "C141",
   "status": "proved",
   "theorems": [
    "GP.C141_lib",
    "GP.C141_unambiguous",
    "GP.C141_saved"
   ],
   "note": "The property-list reader is the model of what the plist library is assumed to do (Model/Plist): its source is not in the sandbox. That a text in pieces (around comments, or partly in a section) is put together is part of that assumption."
  },
  {
   "property": "C142",
   "status": "partial",
   "theorems": [
    "GP.C142_partial",
    "GP.C142_exact",
    "GP.C142_settles",
    "GP.C142_ever",
    "GP.C142_false"
   ],
   "note": "False of files with a quadratic contour (C142_false: such a file is read and saving it panics). C142_ever: exactly the files none of whose contours starts with a quadratic point can be saved and read for ever, and the others not even twice. For these files everything is proved: C142_partial says what comes back at the first save, C142_exact when that is all, C142_settles that later saves lose nothing more."
  },
  {
   "property": "C143",
   "status": "partial",
   "theorems": [
    "GP.C143_partial",
    "GP.C143_exact",
    "GP.C143_ever",
    "GP.C143_false"
   ],
   "note": "False of files with a number beyond the largest f32, which is written as inf (C143_false). C143_exact: the saved text is of the format if and only if all numbers that come to be written are finite. C143_partial: so it is if all numbers of the file are within the f32 (for contours that start with a quadratic point the midpoints must be finite too). C143_ever: with lines and cubic curves this goes on for ever."
  },
  {
   "property": "C144",
   "status": "proved",
   "theorems": [
    "GP.C144_alike",
    "GP.C144_possible",
    "GP.C144_tabs"
   ],
   "note": "C144_alike: by induction on the sequence of saves and a simulation of the flattening on both file systems. C144_possible: the saves are possible and what is saved can be saved again. C144_tabs: without the condition on tabs it is false (an attribute with a tab comes back with a space, so the reference leads to another file)."
  },
  {
   "property": "C145",
   "status": "partial",
   "theorems": [
    "GP.C145_partial",
    "GP.C145_reopened",
    "GP.C145_exact",
    "GP.C145_false",
    "GP.C145_alike",
    "GP.C145_possible"
   ],
   "note": "False because of the lib, which the editor's glyph does not have: C145_false has a file whose saved text differs, C145_exact says that of the files that can be opened exactly those without a lib are saved as the same text, C145_partial that what is written is what is written of the glyph without its lib (any glyph, any printer), C145_reopened that all the rest comes back. What the font draws does not change: C145_alike (by induction on the sequence of saves), and the saves are possible: C145_possible."
  },
  {
   "property": "C146",
   "status": "proved",
   "theorems": [
    "GP.C146_parts",
    "GP.C146_outline",
    "GP.C146_each"
   ],
   "note": "C146_parts: two parts of a document; C146_outline: two parts of an outline; C146_each: each thing in an outline, by induction on the outline. All three are equivalences, so what is refused is said too."
  },
  {
   "property": "C147",
   "status": "proved",
   "theorems": [
    "GP.C147_parts",
    "GP.C147_each",
    "GP.C147_times"
   ],
   "note": "C147_parts: two parts; C147_each: each contour and component; C147_times: two parts, any number of saves (default pedantry), by induction on the number. Equivalences, so it also says which glyphs cannot be saved and read. Documents as elements; for the text see C97."
  },
  {
   "property": "C148",
   "status": "partial",
   "theorems": [
    "GP.C148_partial",
    "GP.C148_exact",
    "GP.C148_quadratic",
    "GP.C148_drawn",
    "GP.C148_document",
    "GP.C148_false"
   ],
   "note": "False of the code (C148_false): a contour listed from an off-curve point on is lost, and a quadratic contour that ends with an off-curve point gets one more point. C148_exact: a contour of lines and cubic curves (without three off-curve points in a row) comes out the same exactly if it is listed from an on-curve point on; C148_quadratic: a quadratic one, from on-curve points on, exactly if it also ends with an on-curve point each time, or the very same is read. C148_document: whole documents with any number of cubic contours begun elsewhere. Missing: contours with three off-curve points in a row, of which C86_exact says what is read."
  },
  {
   "property": "C149",
   "status": "partial",
   "theorems": [
    "GP.C149_partial",
    "GP.C149_drawn",
    "GP.C149_quadratic",
    "GP.C149_document",
    "GP.C149_false"
   ],
   "note": "False of the code (C149_false): a curve with a single control point takes it as the handle of the point before, so listed backwards it belongs to another point than after reversing, and another curve is drawn. C149_partial: without such curves (and without three off-curve points in a row) the very reversal is read, from some point on. C149_drawn: the control polygons are run backwards; which of them are drawn as curves goes by the types of the points, see C29. C149_quadratic: quadratic contours that begin and end on the curve, without names on off-curve points, for a midpoint that does not depend on the order. C149_document: whole documents with all contours listed backwards give the reversed outline, components and the rest the same."
  },
  {
   "property": "C150",
   "status": "partial",
   "theorems": [
    "GP.C150_partial",
    "GP.C150_exact",
    "GP.C150_twice",
    "GP.C150_open",
    "GP.C150_false"
   ],
   "note": "Reversing leaves the types of a closed contour with the points, so that by types alone other segments are curves (C29_false); refiguring puts this right. False of the code (C150_false) only since one pass of refiguring does not settle every closed contour (C30_false): C150_exact says exactly when. C150_twice: refigured twice first, every closed contour; C150_open: every open contour, which stays open."
  }
 ]
}