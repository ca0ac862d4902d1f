{
 "claims": [
  {
   "property": "C01",
   "status": "partial",
   "theorems": [
    "Verif.Core.Vec.C01_shape_partial",
    "Verif.Core.Vec.C01_push_mismatch",
    "Verif.Core.Vec.C01_reform_mismatch",
    "Verif.Core.Vec.C01_remove_refuted",
    "Verif.Core.Vec.C01_overflow_refuted",
    "Verif.Core.Vec.C01_moveAssign_refuted"
   ],
   "note": "Invariant by induction over all histories of 20 operations; restrictions (distinct in-range removed indices, no wrap of requested sizes, no move assignment) are each shown necessary by a refutation."
  },
  {
   "property": "C02",
   "status": "partial",
   "theorems": [
    "Verif.Core.Vec.C02_move_construct",
    "Verif.Core.Vec.C02_move_construct_dims",
    "Verif.Core.Vec.C02_move_assign_refuted"
   ],
   "note": "Holds for move construction; refuted for move assignment (dimensions of the source are kept)."
  },
  {
   "property": "C03",
   "status": "proved",
   "theorems": [
    "Verif.Index.C03_flat_then_mult",
    "Verif.Index.C03_mult_then_flat",
    "Verif.Index.C03_injective",
    "Verif.Index.C03_row_major",
    "Verif.Index.C03_signed"
   ],
   "note": "All shapes and dimension counts."
  },
  {
   "property": "C04",
   "status": "partial",
   "theorems": [
    "Verif.Index.C04_access_spec",
    "Verif.Index.C04_negative_wraps",
    "Verif.Index.C04_safe",
    "Verif.Index.C04_abort_iff",
    "Verif.Index.C04_width_partial",
    "Verif.Index.C04_width_diverges",
    "Verif.Index.C04_width_wrong_element"
   ],
   "note": "Proved for index types wide enough for the size (size <= 2^(w-1)); for narrower types the code diverges or reads another element, proved as C04_width_diverges and C04_width_wrong_element."
  },
  {
   "property": "C05",
   "status": "proved",
   "theorems": [
    "Verif.Core.C05_range_access",
    "Verif.Core.C05_safe",
    "Verif.Core.C05_left_right"
   ],
   "note": "Ranges on one dimension or flat access, any size below 2^60; outside bounds abort, never undefined."
  },
  {
   "property": "C06",
   "status": "partial",
   "theorems": [
    "Verif.Core.C06_correct",
    "Verif.Core.C06_outside_aborts",
    "Verif.Core.C06_safe",
    "Verif.Core.C06_reversed_twice_refuted",
    "Verif.Core.C06_overflow_refuted"
   ],
   "note": "Correct for every list of legal selectors whose result fits in memory. Refuted parts: two ranges with first = last+2 or more pass the size check together; view size wraps modulo 2^64."
  },
  {
   "property": "C07",
   "status": "partial",
   "theorems": [
    "Verif.Core.View.C07_snapshot",
    "Verif.Core.View.C07_values",
    "Verif.Core.View.C07_access_tracked",
    "Verif.Core.View.C07_assign_vec",
    "Verif.Core.View.C07_scalar",
    "Verif.Core.View.C07_const_view_refuted",
    "Verif.Core.View.C07_const_assign_refuted",
    "Verif.Core.View.C07_view_of_view_refuted"
   ],
   "note": "Proved for vectors and modifiable views whose parent is recorded correctly; refuted for views of const elements and for a view indexed with a range."
  },
  {
   "property": "C08",
   "status": "proved",
   "theorems": [
    "Verif.Core.Ops.C08_binop",
    "Verif.Core.Ops.C08_inplace",
    "Verif.Core.Ops.C08_self",
    "Verif.Core.Ops.C08_mismatch",
    "Verif.Core.Ops.C08_scalar"
   ],
   "note": "Aliasing with views is covered by C07_values, aliasing of a scalar operand by C74."
  },
  {
   "property": "C09",
   "status": "partial",
   "theorems": [
    "Verif.Core.Vec.C09_append",
    "Verif.Core.Vec.C09_prepend",
    "Verif.Core.Vec.C09_empty",
    "Verif.Core.Vec.C09_mismatch_aborts_partial",
    "Verif.Core.Vec.C09_mismatch_refuted",
    "Verif.Core.Vec.C09_flat"
   ],
   "note": "Concatenation proved for every dimension; the shape check only compares element counts, so some incompatible shapes are accepted (refutation)."
  },
  {
   "property": "C10",
   "status": "partial",
   "theorems": [
    "Verif.Core.Vec.C10_remove_partial",
    "Verif.Core.Vec.C10_outside_aborts",
    "Verif.Core.Vec.C10_duplicates_refuted",
    "Verif.Core.Vec.C10_multidim_refuted",
    "Verif.Core.Vec.C10_repeated_largest"
   ],
   "note": "Proved for distinct indices in range; duplicates and, in several dimensions, out-of-range indices are refuted."
  },
  {
   "property": "C100",
   "status": "partial",
   "theorems": [
    "Verif.Coord.C100_rotation",
    "Verif.Coord.C100_isometry",
    "Verif.Coord.C100_compose",
    "Verif.Coord.C100_inverse",
    "Verif.Coord.C100_vector",
    "Verif.Coord.C100_vernal_partial",
    "Verif.Coord.C100_vernal_refuted"
   ],
   "note": "angrot_vernal is proved in full. vernal_angle holds for 0<RA<180 only: for 180<RA<360 the sign is not flipped because radians are compared with 180."
  },
  {
   "property": "C101",
   "status": "proved",
   "theorems": [
    "Verif.Coord.C101_dec",
    "Verif.Coord.C101_equator",
    "Verif.Coord.C101_ra",
    "Verif.Coord.C101_both",
    "Verif.Coord.C101_vector"
   ],
   "note": "Over the real numbers."
  },
  {
   "property": "C102",
   "status": "proved",
   "theorems": [
    "Verif.Units.C102_mag_flux",
    "Verif.Units.C102_flux_mag",
    "Verif.Units.C102_pogson",
    "Verif.Units.C102_order",
    "Verif.Units.C102_zero_point",
    "Verif.Units.C102_lsun",
    "Verif.Units.C102_lsun_back",
    "Verif.Units.C102_lsun_physics",
    "Verif.Units.C102_absolute",
    "Verif.Units.C102_lsun_mag",
    "Verif.Units.C102_mag_lsun",
    "Verif.Units.C102_cgs",
    "Verif.Units.C102_cgs_back",
    "Verif.Units.C102_cgs_physics"
   ],
   "note": "Over the real numbers, for the scalar functions. The template parameter U of mag2lsun cannot be deduced, so it must be given by the caller."
  },
  {
   "property": "C103",
   "status": "partial",
   "theorems": [
    "Verif.Sed.C103_flux_partial",
    "Verif.Sed.C103_flat_partial",
    "Verif.Sed.C103_bounds_partial",
    "Verif.Sed.C103_linear_partial",
    "Verif.Sed.C103_integral_partial",
    "Verif.Sed.C103_before",
    "Verif.Sed.C103_short_refuted",
    "Verif.Sed.C103_beyond_refuted"
   ],
   "note": "Holds when the SED extends beyond the filter on the red side. Refuted: an SED ending exactly with the filter gives NaN; a filter starting at or after the end of the SED is an out-of-bounds read. The result is the trapezium sum of the product, not the integral of the product of the two interpolants."
  },
  {
   "property": "C104",
   "status": "partial",
   "theorems": [
    "Verif.Sed.C104_luminosity_partial",
    "Verif.Sed.C104_outside",
    "Verif.Sed.C104_region_refuted"
   ],
   "note": "The integral runs from the last point at or below l0 to the first point above l1, a larger region unless the limits fit the grid; NaN when l1 is the last point."
  },
  {
   "property": "C105",
   "status": "partial",
   "theorems": [
    "Verif.Sex.C105_parse",
    "Verif.Sex.C105_refuse",
    "Verif.Sex.C105_vector",
    "Verif.Sex.C105_format",
    "Verif.Sex.C105_roundtrip_partial",
    "Verif.Sex.C105_sign_refuted",
    "Verif.Sex.C105_minus_zero_refuted",
    "Verif.Sex.C105_exponent_refuted"
   ],
   "note": "The round trip holds for angles that are not between -1 and 0 (degrees or hours), up to the precision of the text of the seconds. Refuted: the sign of -0 is neither written nor read; seconds written with an exponent get a second decimal point."
  },
  {
   "property": "C106",
   "status": "proved",
   "theorems": [
    "Verif.Stats.C106_mean",
    "Verif.Stats.C106_bounds",
    "Verif.Stats.C106_affine",
    "Verif.Stats.C106_least_squares",
    "Verif.Stats.C106_weighted",
    "Verif.Stats.C106_weighted_equal",
    "Verif.Stats.C106_weighted_bounds",
    "Verif.Stats.C106_count",
    "Verif.Stats.C106_fraction",
    "Verif.Stats.C106_fraction_among",
    "Verif.Stats.C106_optimal",
    "Verif.Stats.C106_optimal_error"
   ],
   "note": "In exact arithmetic, for data without NaN."
  },
  {
   "property": "C107",
   "status": "proved",
   "theorems": [
    "Verif.Stats.C107_rms",
    "Verif.Stats.C107_stddev",
    "Verif.Stats.C107_stddev_affine",
    "Verif.Stats.C107_stddev_zero",
    "Verif.Stats.C107_mad",
    "Verif.Stats.C107_mad_nonneg",
    "Verif.Stats.C107_clip",
    "Verif.Stats.C107_clip_nan",
    "Verif.Stats.C107_clip_half",
    "Verif.Stats.C107_clip_mono",
    "Verif.Stats.C107_empty"
   ],
   "note": "In exact arithmetic."
  },
  {
   "property": "C108",
   "status": "partial",
   "theorems": [
    "Verif.Stats.C108_percentile",
    "Verif.Stats.C108_unique",
    "Verif.Stats.C108_nan",
    "Verif.Stats.C108_refused",
    "Verif.Stats.C108_median",
    "Verif.Stats.C108_equal_refuted"
   ],
   "note": "Everything holds for weights that are not negative, except that the weighted median with equal weights is not the median for an even number of values (the lower instead of the upper middle value)."
  },
  {
   "property": "C109",
   "status": "partial",
   "theorems": [
    "Verif.Romberg.C109_table",
    "Verif.Romberg.C109_cubic",
    "Verif.Romberg.C109_alias_refuted",
    "Verif.Romberg.C109_jump_refuted"
   ],
   "note": "The result is the Romberg estimate and exact for cubic polynomials. Refuted: agreement of the estimates does not bound the error; after 15 rows without agreement the code shifts an int by 32 bits, already reached with one jump."
  },
  {
   "property": "C11",
   "status": "partial",
   "theorems": [
    "Verif.Core.Vec.C11_reverse",
    "Verif.Core.Vec.C11_shift",
    "Verif.Core.Vec.C11_shift_add",
    "Verif.Core.Vec.C11_shift_identity",
    "Verif.Core.Vec.C11_empty_refuted"
   ],
   "note": "All laws for non-empty vectors; shift of an empty vector divides by zero."
  },
  {
   "property": "C110",
   "status": "partial",
   "theorems": [
    "Verif.Gauss.C110_average_partial",
    "Verif.Gauss.C110_integral_refuted",
    "Verif.Gauss.C110_plane_partial",
    "Verif.Gauss.C110_additive"
   ],
   "note": "The functions return the average over the interval or rectangle, not the integral; they agree for unit width only."
  },
  {
   "property": "C111",
   "status": "partial",
   "theorems": [
    "Verif.Tfit.C111_amplitude",
    "Verif.Tfit.C111_chi2_flux",
    "Verif.Tfit.C111_best_renorm",
    "Verif.Tfit.C111_best_fixed",
    "Verif.Tfit.C111_simulations",
    "Verif.Tfit.C111_returns",
    "Verif.Tfit.C111_zero_refuted",
    "Verif.Tfit.C111_ulim"
   ],
   "note": "Proved in exact arithmetic for templates that are not zero in all the filters. Refuted for the others: the amplitude and the fluxes of a null template are NaN, and it can be the best fit. With upper limits: without renorm."
  },
  {
   "property": "C112",
   "status": "partial",
   "theorems": [
    "Verif.Tfit.C112_multi_partial",
    "Verif.Tfit.C112_singular_refuted",
    "Verif.Tfit.C112_ulim_constraint_refuted",
    "Verif.Tfit.C112_ulim_partial",
    "Verif.Tfit.C112_ulim_flux_refuted",
    "Verif.Tfit.C112_no_lapack_refuted"
   ],
   "note": "Proved when the templates of every allowed combination are linearly independent (LAPACK by contract). Refuted: a singular combination, and with upper limits a refused one, stalls the loop; with upper limits the fluxes are multiplied by the errors; without LAPACK the amplitudes are wrong."
  },
  {
   "property": "C113",
   "status": "partial",
   "theorems": [
    "Verif.Limweight.C113_exact",
    "Verif.Limweight.C113_error_partial",
    "Verif.Limweight.C113_error_refuted",
    "Verif.Limweight.C113_monotone_refuted",
    "Verif.Limweight.C113_monotone_partial",
    "Verif.Limweight.C113_positive",
    "Verif.Limweight.C113_vanishes"
   ],
   "note": "The error below -3 is at most 2%, but more than the announced 0.3%; the weight jumps down at -3. Real numbers, no rounding."
  },
  {
   "property": "C114",
   "status": "partial",
   "theorems": [
    "Verif.Catalog.C114_pool",
    "Verif.Catalog.C114_add",
    "Verif.Catalog.C114_match",
    "Verif.Catalog.C114_nearest",
    "Verif.Catalog.C114_merge",
    "Verif.Catalog.C114_merge_returns",
    "Verif.Catalog.C114_flux_refuted",
    "Verif.Catalog.C114_flux"
   ],
   "note": "The matcher is a parameter (its result has one element per source of the pool). Refuted: merge_flux aborts if a catalogue brought new sources since the last call."
  },
  {
   "property": "C115",
   "status": "partial",
   "theorems": [
    "Verif.Ds9.C115_total",
    "Verif.Ds9.C115_sky_partial",
    "Verif.Ds9.C115_physical_refuted",
    "Verif.Ds9.C115_linear_refuted",
    "Verif.Ds9.C115_convert",
    "Verif.Ds9.C115_mode_refuted",
    "Verif.Ds9.C115_text_refuted"
   ],
   "note": "Proved: totality, the round trip in sky coordinates up to colour and text, conversions. Refuted: the round trip in pixel coordinates (shifted by one pixel), with a WCS that is not spatial (empty), the return from physical to sky lines, texts of several words. String conversions by contract."
  },
  {
   "property": "C116",
   "status": "partial",
   "theorems": [
    "Verif.Ds9.C116_circle_partial",
    "Verif.Ds9.C116_negative",
    "Verif.Ds9.C116_edge_refuted",
    "Verif.Ds9.C116_full",
    "Verif.Ds9.C116_mask_circle",
    "Verif.Ds9.C116_small_refuted",
    "Verif.Ds9.C116_mask_box_partial",
    "Verif.Ds9.C116_flat_refuted"
   ],
   "note": "Exact arithmetic. Refuted: a disc that stays in negative coordinates is ignored although it covers corners of the first pixels; a circle inside a pixel masks nothing; a box without height masks pixels beyond its ends."
  },
  {
   "property": "C117",
   "status": "partial",
   "theorems": [
    "Verif.Profile.C117_gauss_pixel",
    "Verif.Profile.C117_gauss_total",
    "Verif.Profile.C117_gauss_symmetric",
    "Verif.Profile.C117_centre_refuted",
    "Verif.Profile.C117_radial_refuted",
    "Verif.Profile.C117_ring_refuted",
    "Verif.Profile.C117_radial_uniform_partial"
   ],
   "note": "Gaussian profiles are proved over the real numbers. Refuted: the default circular mask is not centred on the central pixel, and radial_profile passes its arguments in the wrong order so that its rings are not around the centre."
  },
  {
   "property": "C118",
   "status": "partial",
   "theorems": [
    "Verif.Qstack.C118_cut_partial",
    "Verif.Qstack.C118_stack_partial",
    "Verif.Qstack.C118_weights_partial",
    "Verif.Qstack.C118_half_refuted",
    "Verif.Qstack.C118_axes_refuted",
    "Verif.Qstack.C118_last_refuted",
    "Verif.Qstack.C118_weights_last_refuted",
    "Verif.Qstack.C118_sections_refuted",
    "Verif.Qstack.C118_offsets_refuted"
   ],
   "note": "Proved for images with two axes and positions that are not half-integers before the first edge. Refuted: half-integer positions near the first edge abort; images with an axis of length 1 read out of bounds; sources on the last row or column are ignored; with sections the weights may belong to other sources and the offsets are lost. cfitsio by contract."
  },
  {
   "property": "C119",
   "status": "proved",
   "theorems": [
    "Verif.Matrices.C119_mul",
    "Verif.Matrices.C119_mul_dims",
    "Verif.Matrices.C119_assoc",
    "Verif.Matrices.C119_transpose",
    "Verif.Matrices.C119_transpose_twice",
    "Verif.Matrices.C119_transpose_mul",
    "Verif.Matrices.C119_diagonal",
    "Verif.Matrices.C119_as_diagonal",
    "Verif.Matrices.C119_identity",
    "Verif.Matrices.C119_vector",
    "Verif.Matrices.C119_vector_dims",
    "Verif.Matrices.C119_action",
    "Verif.Matrices.C119_compose",
    "Verif.Matrices.C119_rotation"
   ],
   "note": "Elements of a ring, without rounding."
  },
  {
   "property": "C12",
   "status": "proved",
   "theorems": [
    "Verif.Core.Vec.C12_transpose"
   ],
   "note": ""
  },
  {
   "property": "C120",
   "status": "partial",
   "theorems": [
    "Verif.Fits.C120_get",
    "Verif.Fits.C120_set_partial",
    "Verif.Fits.C120_refused",
    "Verif.Fits.C120_string",
    "Verif.Fits.C120_end_refuted",
    "Verif.Fits.C120_slash_refuted",
    "Verif.Fits.C120_amp_refuted"
   ],
   "note": "Proved for names without equal sign or outer blanks, values without slash, a last card where END only occurs at its beginning, and room for a continued comment. Refuted without these: a new card is inserted in the middle of a last card containing END (BLEND); values are cut at a slash within quotes; a continued comment overwrites the last character of the value. Conversions of values to and from text not modelled."
  },
  {
   "property": "C121",
   "status": "partial",
   "theorems": [
    "Verif.Fits.C121_roundtrip_partial",
    "Verif.Fits.C121_cards",
    "Verif.Fits.C121_comment_refuted",
    "Verif.Fits.C121_quote_refuted",
    "Verif.Fits.C121_continue_refuted",
    "Verif.Fits.C121_long_refuted"
   ],
   "note": "Round trip proved for keywords that fit in a card, with values without inner quote or unquoted slash and comments starting with a slash. Refuted: comment cards with a slash and values with escaped quotes are changed; a continuation by an empty text, or without previous card, is undefined behaviour; values over several cards are cut."
  },
  {
   "property": "C122",
   "status": "partial",
   "theorems": [
    "Verif.WcsHeader.C122_make",
    "Verif.WcsHeader.C122_text",
    "Verif.WcsHeader.C122_text_refused",
    "Verif.WcsHeader.C122_filter_partial",
    "Verif.WcsHeader.C122_filter_get",
    "Verif.WcsHeader.C122_naxis_refuted",
    "Verif.WcsHeader.C122_twice_refuted",
    "Verif.WcsHeader.C122_other_refuted",
    "Verif.WcsHeader.C122_long"
   ],
   "note": "Refuted: the number of axes is written in NAXES, never in NAXIS; filter_wcs duplicates RADECSYS and SECPIX cards, and keeps cards whose name only begins like a keyword (DECONV). Conversions between numbers and texts are parameters."
  },
  {
   "property": "C123",
   "status": "partial",
   "theorems": [
    "Verif.Wcs.C123_axes",
    "Verif.Wcs.C123_sky_partial",
    "Verif.Wcs.C123_default",
    "Verif.Wcs.C123_ad2xy",
    "Verif.Wcs.C123_xy2ad",
    "Verif.Wcs.C123_pixel_roundtrip",
    "Verif.Wcs.C123_sky_roundtrip",
    "Verif.Wcs.C123_two_axes",
    "Verif.Wcs.C123_refused",
    "Verif.Wcs.C123_valid_unit",
    "Verif.Wcs.C123_axis_refused",
    "Verif.Wcs.C123_x2w",
    "Verif.Wcs.C123_w2x",
    "Verif.Wcs.C123_build_axis",
    "Verif.Wcs.C123_units",
    "Verif.Wcs.C123_axis_pixel_roundtrip",
    "Verif.Wcs.C123_axis_roundtrip",
    "Verif.Wcs.C123_ra_only_refuted",
    "Verif.Wcs.C123_one_axis_refuted"
   ],
   "note": "wcslib is a parameter (two inverse conversions of a point). Proved when the file has both RA and DEC, or no RA and at least two axes; the round trips need that the axes converted do not depend on the others (always true with two axes). Refuted: with RA but no DEC (the second test of the constructor is on the wrong variable), and with a single axis, ad2xy writes out of bounds. Rounding not modelled."
  },
  {
   "property": "C124",
   "status": "partial",
   "theorems": [
    "Verif.WcsLife.C124_safe_partial",
    "Verif.WcsLife.C124_owner_partial",
    "Verif.WcsLife.C124_update_partial",
    "Verif.WcsLife.C124_update_refuted",
    "Verif.WcsLife.C124_safe_refuted"
   ],
   "note": "Proved for objects created from headers; currency after update() for programs without move assignment. Refuted: move assignment does not move the isset flag, so update() may do nothing; wcs(naxis) allocates with new what is freed with free."
  },
  {
   "property": "C125",
   "status": "partial",
   "theorems": [
    "Verif.FitsTable.C125_write",
    "Verif.FitsTable.C125_roundtrip_partial",
    "Verif.FitsTable.C125_others",
    "Verif.FitsTable.C125_table_partial",
    "Verif.FitsTable.C125_remove",
    "Verif.FitsTable.C125_update_partial",
    "Verif.FitsTable.C125_allocate_partial",
    "Verif.FitsTable.C125_strings_partial",
    "Verif.FitsTable.C125_scalar",
    "Verif.FitsTable.C125_duplicate_refuted",
    "Verif.FitsTable.C125_duplicate_update_refuted",
    "Verif.FitsTable.C125_ones_refuted",
    "Verif.FitsTable.C125_empty_refuted",
    "Verif.FitsTable.C125_reopen_refuted",
    "Verif.FitsTable.C125_move_refuted",
    "Verif.FitsTable.C125_scalar_refuted",
    "Verif.FitsTable.C125_update_refuted",
    "Verif.FitsTable.C125_strings_refuted"
   ],
   "note": "cfitsio is modelled by its contract. Proved with conditions that are shown to be necessary: a row-oriented vector of dimensions (n,1) is refused or read as (1,n); the rows of a first column without elements are lost; a row-oriented table with a single row is column-oriented once opened again; a file object obtained by a move reads only the first row; a number can be read from a column with several rows; the only column of a row-oriented table keeps its number of rows when updated; once a name is used twice, neither column can be read, removed or updated."
  },
  {
   "property": "C126",
   "status": "partial",
   "theorems": [
    "Verif.FitsTable.C126_types",
    "Verif.FitsTable.C126_strings",
    "Verif.FitsTable.C126_exact_partial",
    "Verif.FitsTable.C126_exact_refuted",
    "Verif.FitsTable.C126_dims",
    "Verif.FitsTable.C126_narrow"
   ],
   "note": "Refuted: eight conversions allowed without narrowing can change values (uint from signed integers, char and bool from byte, float from 32 and 64 bit integers, double from 64 bit integers); the theorem gives the exact list."
  },
  {
   "property": "C127",
   "status": "partial",
   "theorems": [
    "Verif.FitsTable.C127_read_partial",
    "Verif.FitsTable.C127_update",
    "Verif.FitsTable.C127_ranges_refuted",
    "Verif.FitsTable.C127_update_refuted",
    "Verif.FitsTable.C127_rows_refuted",
    "Verif.FitsTable.C127_type_refuted"
   ],
   "note": "Proved when the vector has as many dimensions as there are ranges. Refuted: this is not checked, and elements of other indices are read or changed; a row-oriented vector of one dimension needs two indices; a column of characters is refused when its first row has only zeros and ones."
  },
  {
   "property": "C128",
   "status": "partial",
   "theorems": [
    "Verif.Astro.C128_distance_partial",
    "Verif.Astro.C128_aligned",
    "Verif.Astro.C128_single",
    "Verif.Astro.C128_nearest_refuted",
    "Verif.Astro.C128_value_refuted"
   ],
   "note": "Proved for all maps: everything but the two last sentences of the claim, which are refuted by witnesses: the pixel found need not be the nearest, and the value given can be the one of another segment."
  },
  {
   "property": "C129",
   "status": "partial",
   "theorems": [
    "Verif.Astro.C129_prepared",
    "Verif.Astro.C129_reuse",
    "Verif.Astro.C129_even",
    "Verif.Astro.C129_naive",
    "Verif.Astro.C129_convolve2d_partial",
    "Verif.Astro.C129_last_ignored",
    "Verif.Astro.C129_convolve2d_refuted"
   ],
   "note": "Proved in full for prepared kernels. convolve2d(map, kernel) ignores the last row and column of kernels of odd dimensions (proved); it is correct for kernels of even dimensions and for those whose last row and column are zero."
  },
  {
   "property": "C13",
   "status": "partial",
   "theorems": [
    "Verif.Core.Vec.C13_replicate_scalar",
    "Verif.Core.Vec.C13_replicate",
    "Verif.Core.Vec.C13_empty_refuted"
   ],
   "note": "Proved for scalars and non-empty vectors; an empty vector argument divides by zero."
  },
  {
   "property": "C130",
   "status": "partial",
   "theorems": [
    "Verif.Astro.C130_history_partial",
    "Verif.Astro.C130_first",
    "Verif.Astro.C130_cyclic_partial",
    "Verif.Astro.C130_tall_refuted",
    "Verif.Astro.C130_wide_refuted",
    "Verif.Astro.C130_cyclic_refuted"
   ],
   "note": "Proved for maps that are square with the padding and for kernels of one row, and for the first map if it is wider than tall. Refuted for the others: maps taller than wide write outside of the array; maps wider than tall are wrong from the second call. Cyclic convolutions are multiplied by the number of elements."
  },
  {
   "property": "C131",
   "status": "partial",
   "theorems": [
    "Verif.Astro.C131_transition_partial",
    "Verif.Astro.C131_wide",
    "Verif.Astro.C131_factor_refuted",
    "Verif.Astro.C131_tall_refuted"
   ],
   "note": "Proved up to the factor of the number of elements, for images not taller than wide and less than twice as wide as tall. Refuted without the factor and for the other dimensions."
  },
  {
   "property": "C132",
   "status": "partial",
   "theorems": [
    "Verif.FitsImage.C132_write",
    "Verif.FitsImage.C132_read",
    "Verif.FitsImage.C132_roundtrip",
    "Verif.FitsImage.C132_write_empty",
    "Verif.FitsImage.C132_update_partial",
    "Verif.FitsImage.C132_update_refuted",
    "Verif.FitsImage.C132_update_lossy_refuted"
   ],
   "note": "Proved for writing and reading. update is proved to replace the pixels when it accepts, but it checks types as for reading: float vectors are refused for images of double, and double vectors are accepted for images of integers and rounded (witness)."
  },
  {
   "property": "C133",
   "status": "partial",
   "theorems": [
    "Verif.FitsImage.C133_reach_partial",
    "Verif.FitsImage.C133_readonly",
    "Verif.FitsImage.C133_sequence",
    "Verif.FitsImage.C133_remove",
    "Verif.FitsImage.C133_reach_refuted",
    "Verif.FitsImage.C133_third_refuted"
   ],
   "note": "Proved if the current HDU is the last one or the HDU exists. Otherwise the new HDUs are inserted after the current one, the later ones are moved and the HDU reached has the data of the last one (refuted for all such files)."
  },
  {
   "property": "C134",
   "status": "partial",
   "theorems": [
    "Verif.FitsImage.C134_pixel",
    "Verif.FitsImage.C134_subset_partial",
    "Verif.FitsImage.C134_subset_refused",
    "Verif.FitsImage.C134_subset_refuted"
   ],
   "note": "Proved for all selections inside of the image, and for all those refused. Ranges that start after the end of the axis or after their own end are given to cfitsio without check (proved)."
  },
  {
   "property": "C135",
   "status": "partial",
   "theorems": [
    "Verif.FitsStatus.C135_partial",
    "Verif.FitsStatus.C135_sequence_partial",
    "Verif.FitsStatus.C135_reopen",
    "Verif.FitsStatus.C135_open_refuted",
    "Verif.FitsStatus.C135_call_refuted",
    "Verif.FitsStatus.C135_column_refuted",
    "Verif.FitsStatus.C135_recover_partial"
   ],
   "note": "Proved up to the first error, and when another file is opened from an opened one. After open has failed the object can open no file, for any sequence of operations; after another error calls keep failing, and a column can be reported as missing. After errors, removing a keyword or column or missing a column repairs the object."
  },
  {
   "property": "C136",
   "status": "partial",
   "theorems": [
    "Verif.Astro.C136_segments",
    "Verif.Astro.C136_peaks",
    "Verif.Astro.C136_rule",
    "Verif.Astro.C136_all",
    "Verif.Astro.C136_last_refuted",
    "Verif.Astro.C136_again_refuted",
    "Verif.Astro.C136_empty_refuted",
    "Verif.Astro.C136_island_refuted"
   ],
   "note": "Proved for a new output and images that are not empty. Refuted: the last pixel in the order of the values is never in a segment (an image of one pixel has none); pixels that are within reach but not connected are in none (all are there if deblend_threshold is at most 2, proved); an output cannot be used twice (abort); an empty image is read out of bounds."
  },
  {
   "property": "C137",
   "status": "partial",
   "theorems": [
    "Verif.Astro.C137_measures",
    "Verif.Astro.C137_area_refuted"
   ],
   "note": "Proved with the peak counted twice when the segment has another pixel; refuted as stated (witness)."
  },
  {
   "property": "C138",
   "status": "partial",
   "theorems": [
    "Verif.Astro.C138_small",
    "Verif.Astro.C138_measures",
    "Verif.Astro.C138_area_refuted",
    "Verif.Astro.C138_peak_refuted"
   ],
   "note": "Proved with the area as computed, that is with the peak counted twice. Refuted: a segment of min_area - 1 pixels is kept; the peak is not the brightest pixel after a brighter small segment was given to it."
  },
  {
   "property": "C139",
   "status": "partial",
   "theorems": [
    "Verif.Astro.C139_linear_partial",
    "Verif.Astro.C139_nearest_partial",
    "Verif.Astro.C139_cubic",
    "Verif.Astro.C139_same",
    "Verif.Astro.C139_nearest_refuted",
    "Verif.Astro.C139_linear_refuted",
    "Verif.Astro.C139_shift_refuted",
    "Verif.Astro.C139_size_refuted"
   ],
   "note": "Proved inside the source image for affine maps. Refuted: the nearest method never covers the first row and column, the linear one never the last row and column; with linearize, a shift by whole pixels is done in the opposite direction, and images of different sizes are read with the wrong width or out of bounds."
  },
  {
   "property": "C14",
   "status": "partial",
   "theorems": [
    "Verif.Find.C14_sort",
    "Verif.Find.C14_sort_unique",
    "Verif.Find.C14_inplace_sort",
    "Verif.Find.C14_agree",
    "Verif.Find.C14_is_sorted_partial",
    "Verif.Find.C14_is_sorted_refuted",
    "Verif.Find.C14_is_sorted_empty_refuted"
   ],
   "note": "sort and inplace_sort proved in full. is_sorted decides strict increase on non-empty vectors; it rejects sorted vectors with repeated values and reads out of bounds on empty vectors (refuted)."
  },
  {
   "property": "C140",
   "status": "partial",
   "theorems": [
    "Verif.Astro.C140_overlap_partial",
    "Verif.Astro.C140_flux",
    "Verif.Astro.C140_identity",
    "Verif.Astro.C140_touch_refuted",
    "Verif.Astro.C140_border_refuted"
   ],
   "note": "Proved when each projection is inside the destination, or away from it, or shares two pixels with it. Refuted: a projection that only touches the image from outside, or that meets a single pixel of it, is counted with its whole area."
  },
  {
   "property": "C141",
   "status": "partial",
   "theorems": [
    "Verif.Astro.C141_mean",
    "Verif.Astro.C141_range",
    "Verif.Astro.C141_affine",
    "Verif.Astro.C141_linearize_partial",
    "Verif.Astro.C141_shift",
    "Verif.Astro.C141_pixfrac_refuted",
    "Verif.Astro.C141_shear_refuted"
   ],
   "note": "linearize proved for perpendicular axes with pixfrac=1; refuted for pixfrac different from 1 (loses pixfrac^2) and for axes that are not perpendicular."
  },
  {
   "property": "C142",
   "status": "partial",
   "theorems": [
    "Verif.Astro.C142_pixels_partial",
    "Verif.Astro.C142_single",
    "Verif.Astro.C142_header_partial",
    "Verif.Astro.C142_size",
    "Verif.Astro.C142_default_refuted",
    "Verif.Astro.C142_header_refuted",
    "Verif.Astro.C142_empty_refuted"
   ],
   "note": "Proved for the default value NaN, and for any default when one image covers the source; the header proved when the source is covered. Refuted: with a finite default value, pixels outside of the first image are never filled from the next ones; the header of a source that is not covered has no pixels; without images the conversion of the size is undefined."
  },
  {
   "property": "C143",
   "status": "partial",
   "theorems": [
    "Verif.StrConv.C143_signed",
    "Verif.StrConv.C143_unsigned_partial",
    "Verif.StrConv.C143_unsigned_refuted",
    "Verif.StrConv.C143_int_round_trip",
    "Verif.StrConv.C143_bool",
    "Verif.StrConv.C143_string_partial",
    "Verif.StrConv.C143_string_refuted",
    "Verif.StrConv.C143_char_partial",
    "Verif.StrConv.C143_char_refuted",
    "Verif.StrConv.C143_special",
    "Verif.StrConv.C143_special_texts",
    "Verif.StrConv.C143_vec",
    "Verif.StrConv.C143_float_partial",
    "Verif.StrConv.C143_float_refuted",
    "Verif.StrConv.C143_int64",
    "Verif.StrConv.C143_argument"
   ],
   "note": "Proved for integers of all widths, booleans, words, characters that are not spaces, NaN and infinities, and whole numbers of up to six digits. Refuted: negative numbers are accepted for unsigned types, texts with spaces and empty texts are refused, 8 bit integers are read as characters, floating point numbers are written with six digits."
  },
  {
   "property": "C144",
   "status": "partial",
   "theorems": [
    "Verif.Mpfit.C144_frozen",
    "Verif.Mpfit.C144_limits",
    "Verif.Mpfit.C144_never_worse",
    "Verif.Mpfit.C144_reason",
    "Verif.Mpfit.C144_chi2_partial",
    "Verif.Mpfit.C144_covar",
    "Verif.Mpfit.C144_all_frozen",
    "Verif.Mpfit.C144_ends_partial",
    "Verif.Mpfit.C144_options_refuted",
    "Verif.Mpfit.C144_two_limits_refuted",
    "Verif.Mpfit.C144_lower_limit_refuted",
    "Verif.Mpfit.C144_upper_limit_refuted",
    "Verif.Mpfit.C144_minimum_refuted",
    "Verif.Mpfit.C144_chi2_refuted",
    "Verif.Mpfit.C144_evals_refuted",
    "Verif.Mpfit.C144_nan_refuted",
    "Verif.Mpfit.C144_evals_partial"
   ],
   "note": "Frozen parameters, limits of the result, improvement, reasons, number of iterations and covariance of held parameters proved for any function and any linear algebra. End of the fit proved for positive xtol and gtol, deviates that are not NaN at the start and a fitted parameter whose limits exclude zero. Refuted: a parameter with a lower limit never decreases, one with an upper limit never increases, one with both never moves, and such fits are reported as successful; the chi square can be that of a rejected trial; the function is evaluated outside of the limits for derivatives; NaN beside zeros count as a perfect fit; options with nparam = 0 are ignored."
  },
  {
   "property": "C145",
   "status": "partial",
   "theorems": [
    "Verif.Mpfit.C145_factor",
    "Verif.Mpfit.C145_gtol",
    "Verif.Mpfit.C145_unit_refuted"
   ],
   "note": "Scalar products and the test on gtol proved for all sizes and ranks. Refuted: the gradient is not divided by the norm of the deviates, so that a smaller unit of the deviates makes any point pass the test."
  },
  {
   "property": "C146",
   "status": "partial",
   "theorems": [
    "Verif.Mpfit.C146_step",
    "Verif.Mpfit.C146_start_refuted"
   ],
   "note": "Steps proved for all sizes, without a condition on the rank when the step is damped. Refuted: the bounds of the damping are exchanged in the call of clamp, so that a damping between them is replaced by the upper one."
  },
  {
   "property": "C147",
   "status": "partial",
   "theorems": [
    "Verif.Mpfit.C147_inverse",
    "Verif.Mpfit.C147_degenerate_refuted"
   ],
   "note": "Inverse and symmetry proved for all sizes and permutations when no diagonal element is small. Refuted: the variance of an unconstrained parameter is a small element of the triangle, which can be negative."
  },
  {
   "property": "C148",
   "status": "partial",
   "theorems": [
    "Verif.RandPos.C148_selected",
    "Verif.RandPos.C148_failed",
    "Verif.RandPos.C148_succeeds",
    "Verif.RandPos.C148_circle",
    "Verif.RandPos.C148_area",
    "Verif.RandPos.C148_box",
    "Verif.RandPos.C148_no_region",
    "Verif.RandPos.C148_zero_refuted",
    "Verif.RandPos.C148_no_region_law",
    "Verif.RandPos.C148_law"
   ],
   "note": "Selection, failures, circle, box and uniformity in area proved for any sequence of random numbers, region, size and max_iter. Refuted: max_iter = 0 draws more than 2^64 positions before the call fails."
  },
  {
   "property": "C149",
   "status": "partial",
   "theorems": [
    "Verif.RandPos.C149_base",
    "Verif.RandPos.C149_positions",
    "Verif.RandPos.C149_circle_refuted",
    "Verif.RandPos.C149_max_iter_refuted",
    "Verif.RandPos.C149_level"
   ],
   "note": "Number of positions, criterion of the caller and largest distance proved for any random numbers, criterion and options with at least one level. Refuted: positions are not within r0 of the centre; max_iter is not used for rejection sampling."
  },
  {
   "property": "C15",
   "status": "partial",
   "theorems": [
    "Verif.Find.C15_unique_ids_partial",
    "Verif.Find.C15_unique_ids_sorted_partial",
    "Verif.Find.C15_unique_values_partial",
    "Verif.Find.C15_nan_refuted"
   ],
   "note": "Proved without NaN; with NaN every NaN is reported as unique (refuted)."
  },
  {
   "property": "C150",
   "status": "partial",
   "theorems": [
    "Verif.Angcorrel.C150_counts",
    "Verif.Angcorrel.C150_sizes",
    "Verif.Angcorrel.C150_estimator_partial",
    "Verif.Angcorrel.C150_estimator_refuted",
    "Verif.Angcorrel.C150_order",
    "Verif.Angcorrel.C150_same",
    "Verif.Angcorrel.C150_self_refuted"
   ],
   "note": "Counts, order and sizes proved for any distance. Refuted: one normalization lacks a term, so that the value is less than the estimator; objects are paired with themselves in a bin that contains zero."
  },
  {
   "property": "C151",
   "status": "partial",
   "theorems": [
    "Verif.FilterDb.C151_db",
    "Verif.FilterDb.C151_map",
    "Verif.FilterDb.C151_known",
    "Verif.FilterDb.C151_unknown",
    "Verif.FilterDb.C151_file",
    "Verif.FilterDb.C151_range",
    "Verif.FilterDb.C151_bank",
    "Verif.FilterDb.C151_ids",
    "Verif.FilterDb.C151_spaces_refuted",
    "Verif.FilterDb.C151_center_refuted",
    "Verif.FilterDb.C151_scale_refuted",
    "Verif.FilterDb.C151_colon_refuted",
    "Verif.FilterDb.C151_empty_refuted",
    "Verif.FilterDb.C151_bad"
   ],
   "note": "Content of the library, filters that are known, suggestions, files, ranges, banks and identifiers proved for all files and names; conversion of numbers and reading of the file of a filter are parameters. Refuted: spaces around = belong to the name; the wavelength of a range is not the integrated one; the response of a file is not normalized and its wavelength scales with it; a name with a colon is never found; an empty file is read out of bounds."
  },
  {
   "property": "C152",
   "status": "partial",
   "theorems": [
    "Verif.Astro.C152_sources_partial",
    "Verif.Astro.C152_edge_refuted",
    "Verif.Astro.C152_first_row_refuted",
    "Verif.Astro.C152_nan_refuted"
   ],
   "note": "Selection and squares proved for all images, sources and half sizes, if the squares of the sources that pass the test are in the image. Refuted: a source in the last half of a pixel makes the program stop; squares that begin at the first row are left out; coordinates that are not numbers are undefined."
  },
  {
   "property": "C153",
   "status": "proved",
   "theorems": [
    "Verif.Astro.C153_band"
   ],
   "note": "For any result of the regular expressions."
  },
  {
   "property": "C154",
   "status": "partial",
   "theorems": [
    "Verif.Cosmo.C154_few",
    "Verif.Cosmo.C154_many_partial",
    "Verif.Cosmo.C154_error",
    "Verif.Cosmo.C154_lumdist",
    "Verif.Cosmo.C154_lookback",
    "Verif.Cosmo.C154_volume",
    "Verif.Cosmo.C154_propsize",
    "Verif.Cosmo.C154_named",
    "Verif.Cosmo.C154_curvature",
    "Verif.Cosmo.C154_zeros_refuted",
    "Verif.Cosmo.C154_same_refuted",
    "Verif.Cosmo.C154_nan_refuted",
    "Verif.Cosmo.C154_zero",
    "Verif.Cosmo.C154_empty",
    "Verif.Cosmo.C154_matter"
   ],
   "note": "Functions proved positive and increasing for an integration without error; vector forms for all lists of numbers, of which two positive ones at least differ. Refuted: 1600 redshifts or more that are all negative or zero make the program stop; if the positive ones are all the same the result is NaN; NaN becomes 0."
  },
  {
   "property": "C155",
   "status": "proved",
   "theorems": [
    "Verif.Cosmo.C155_log",
    "Verif.Cosmo.C155_order",
    "Verif.Cosmo.C155_bounds"
   ],
   "note": "Real numbers."
  },
  {
   "property": "C156",
   "status": "partial",
   "theorems": [
    "Verif.Astro.C156_fit_partial",
    "Verif.Astro.C156_recover",
    "Verif.Astro.C156_shape_refuted"
   ],
   "note": "Proved for all images and positions if the image of the source is a square with an odd number of pixels and no error is zero. Refuted: other shapes make the program stop."
  },
  {
   "property": "C157",
   "status": "partial",
   "theorems": [
    "Verif.Astro.C157_subtract_partial",
    "Verif.Astro.C157_shape_refuted"
   ],
   "note": "Proved for all images and positions if the image of the source is a square with an odd number of pixels, for the function with index vectors of the right type; as written it cannot be instantiated. Refuted: the two axes are exchanged for sources that are not square, and even sizes make the program stop."
  },
  {
   "property": "C158",
   "status": "partial",
   "theorems": [
    "Verif.Psf.C158_translate_partial",
    "Verif.Psf.C158_integer_partial",
    "Verif.Psf.C158_zero_refuted",
    "Verif.Psf.C158_line_refuted"
   ],
   "note": "Proved for all images of two rows and columns or more and shifts, except for the pixels that come from the last row and column. Refuted: these have the default value, even for a shift by zero; images of one row or column disappear."
  },
  {
   "property": "C159",
   "status": "partial",
   "theorems": [
    "Verif.Psf.C159_gaussian",
    "Verif.Psf.C159_ring",
    "Verif.Psf.C159_refused",
    "Verif.Psf.C159_size",
    "Verif.Psf.C159_file_partial",
    "Verif.Psf.C159_number_refuted",
    "Verif.Psf.C159_last_refuted",
    "Verif.Psf.C159_place_partial"
   ],
   "note": "Models and refusals proved for all strings, positions and sizes; files for positions at the center of a pixel. Refuted: numbers that cannot be read are accepted, or used without a value; the last row and column of a file are lost, and everything if its peak is at a border."
  },
  {
   "property": "C16",
   "status": "partial",
   "theorems": [
    "Verif.Find.C16_where",
    "Verif.Find.C16_complement_partial",
    "Verif.Find.C16_complement_short_partial",
    "Verif.Find.C16_complement_abort",
    "Verif.Find.C16_partition",
    "Verif.Find.C16_complement_refuted"
   ],
   "note": "complement with as many ids as elements always returns nothing, even with repetitions or indices out of range (refuted); all other cases proved."
  },
  {
   "property": "C160",
   "status": "partial",
   "theorems": [
    "Verif.Io.C160_read_partial",
    "Verif.Io.C160_unrecognized",
    "Verif.Io.C160_same_refuted",
    "Verif.Io.C160_paren_refuted",
    "Verif.Io.C160_program",
    "Verif.Io.C160_no_program",
    "Verif.Io.C160_missing"
   ],
   "note": "Proved for variables with different names when all their arguments convert. Refuted: two variables whose names end in the same way are mixed up; a parenthesis in the text of a variable with a label shifts the names that follow."
  },
  {
   "property": "C161",
   "status": "partial",
   "theorems": [
    "Verif.Io.C161_write_partial",
    "Verif.Io.C161_roundtrip",
    "Verif.Io.C161_label_refuted",
    "Verif.Io.C161_text"
   ],
   "note": "Proved for variables without labels. Refuted: after a variable with a label the next ones are read instead of being written."
  },
  {
   "property": "C162",
   "status": "partial",
   "theorems": [
    "Verif.Io.C162_make_cmd_partial",
    "Verif.Io.C162_refuted",
    "Verif.Io.C162_save_args_partial",
    "Verif.Io.C162_save_args_refuted"
   ],
   "note": "Proved for all arguments whose blanks are in their value and in which nothing has to be escaped. Refuted for blanks in names, for quotes, for empty arguments; save_args never quotes."
  },
  {
   "property": "C163",
   "status": "partial",
   "theorems": [
    "Verif.Fits.C163_written",
    "Verif.Fits.C163_keywords_partial",
    "Verif.Fits.C163_update_refuted",
    "Verif.Fits.C163_copy_refuted",
    "Verif.Fits.C163_lost_refuted"
   ],
   "note": "Proved: exactly which cards are written, and which value each keyword has afterwards. Refuted: existing keywords are not updated, a blank card is added at each copy, EXTNAME and names that begin with NAXIS are lost."
  },
  {
   "property": "C164",
   "status": "partial",
   "theorems": [
    "Verif.Fits.C164_write_partial",
    "Verif.Fits.C164_roundtrip_partial",
    "Verif.Fits.C164_add",
    "Verif.Fits.C164_missing",
    "Verif.Fits.C164_logical",
    "Verif.Fits.C164_refuted"
   ],
   "note": "Proved for strings without quotes (exactly what is read back). Refuted for quotes, leading blanks and more than 68 characters."
  },
  {
   "property": "C165",
   "status": "proved",
   "theorems": [
    "Verif.Fits.C165_list",
    "Verif.Fits.C165_missing",
    "Verif.Fits.C165_section",
    "Verif.Fits.C165_refuted"
   ],
   "note": "C165_refuted shows two cases outside the statement: carriage returns and absolute names."
  },
  {
   "property": "C166",
   "status": "proved",
   "theorems": [
    "Verif.Mat.C166_solve_lower",
    "Verif.Mat.C166_solve",
    "Verif.Mat.C166_eigen",
    "Verif.Mat.C166_svd"
   ],
   "note": "Under the documented contracts of dsysv, dsyev and dgesdd, which are hypotheses."
  },
  {
   "property": "C167",
   "status": "partial",
   "theorems": [
    "Verif.Astro.C167_lower_partial",
    "Verif.Astro.C167_sizes",
    "Verif.Astro.C167_refuted"
   ],
   "note": "Proved for the part below the diagonal. Refuted: the part above the diagonal is left at 0."
  },
  {
   "property": "C168",
   "status": "proved",
   "theorems": [
    "Verif.Astro.C168_mean",
    "Verif.Astro.C168_weighted",
    "Verif.Astro.C168_dims",
    "Verif.Astro.C168_median",
    "Verif.Astro.C168_bootstrap",
    "Verif.Astro.C168_bootstrap_weighted"
   ],
   "note": "The indices drawn by randomi (C59) are given."
  },
  {
   "property": "C169",
   "status": "partial",
   "theorems": [
    "Verif.Core.Vectorize.C169_unary",
    "Verif.Core.Vectorize.C169_unary_move",
    "Verif.Core.Vectorize.C169_binary",
    "Verif.Core.Vectorize.C169_binary_move1",
    "Verif.Core.Vectorize.C169_binary_move2",
    "Verif.Core.Vectorize.C169_mismatch",
    "Verif.Core.Vectorize.C169_scalar",
    "Verif.Core.Vectorize.C169_scalar_move",
    "Verif.Core.Vectorize.C169_lambda_first_partial",
    "Verif.Core.Vectorize.C169_forward_refuted",
    "Verif.Core.Vectorize.C169_lambda",
    "Verif.Core.Vectorize.C169_lambda_void",
    "Verif.Core.Vectorize.C169_lambda_pure",
    "Verif.Core.Vectorize.C169_lambda_mismatch"
   ],
   "note": "Proved except for vectorize_lambda_first with a temporary given to a parameter taken by value. Refuted there: the temporary is moved from in the first call, later elements see an empty argument."
  },
  {
   "property": "C17",
   "status": "proved",
   "theorems": [
    "Verif.Find.C17_where_first",
    "Verif.Find.C17_where_last"
   ],
   "note": ""
  },
  {
   "property": "C170",
   "status": "partial",
   "theorems": [
    "Verif.Math.C170_mismatch",
    "Verif.Math.C170_same_partial",
    "Verif.Math.C170_nan",
    "Verif.Math.C170_mixed",
    "Verif.Math.C170_refuted"
   ],
   "note": "Proved for numbers of one type without NaN. Refuted: NaN is treated differently by scalars and vectors; mixtures of types are cut to the type of the first argument."
  },
  {
   "property": "C171",
   "status": "partial",
   "theorems": [
    "Verif.Optimize.C171_loop",
    "Verif.Optimize.C171_result",
    "Verif.Optimize.C171_success",
    "Verif.Optimize.C171_adapter",
    "Verif.Optimize.C171_zero_refuted"
   ],
   "note": "GSL is an arbitrary state machine. Proved with max(1, max_iter) as bound. Refuted: with max_iter = 0 one step is made."
  },
  {
   "property": "C172",
   "status": "partial",
   "theorems": [
    "Verif.Psf.C172_translate_partial",
    "Verif.Psf.C172_integer",
    "Verif.Psf.C172_small",
    "Verif.Psf.C172_refuted"
   ],
   "note": "Proved for the pixels that come from inside of the image. Refuted: pixels from the outside are extrapolated, the default value is never used."
  },
  {
   "property": "C173",
   "status": "partial",
   "theorems": [
    "Verif.Astro.C173_fan_partial",
    "Verif.Astro.C173_refused",
    "Verif.Astro.C173_rotation",
    "Verif.Astro.C173_shift",
    "Verif.Astro.C173_refuted"
   ],
   "note": "Proved: a number, sum of flat triangles with the sides of the triangles on the sky, invariant by rotations. Refuted: for large fields it is not the area on the sky."
  },
  {
   "property": "C174",
   "status": "partial",
   "theorems": [
    "Verif.Cure.C174_cure",
    "Verif.Cure.C174_result_partial",
    "Verif.Cure.C174_unchanged_partial",
    "Verif.Cure.C174_refuted"
   ],
   "note": "C174_cure holds for every header that can be parsed; the statements on the text read back are for the cards of C121. Refuted: CUNIT1A is not corrected, -SIP in CTYPE and A_DMAX remain, a comment with a slash is altered."
  },
  {
   "property": "C175",
   "status": "partial",
   "theorems": [
    "Verif.UnitTest.C175_same_partial",
    "Verif.UnitTest.C175_vector_partial",
    "Verif.UnitTest.C175_dims",
    "Verif.UnitTest.C175_refuted",
    "Verif.UnitTest.C175_equal",
    "Verif.UnitTest.C175_counts",
    "Verif.UnitTest.C175_places"
   ],
   "note": "Proved except for NaN. Refuted: a check of a number against NaN passes."
  },
  {
   "property": "C176",
   "status": "partial",
   "theorems": [
    "Verif.Math.C176_sum",
    "Verif.Math.C176_linear_first",
    "Verif.Math.C176_linear_second",
    "Verif.Math.C176_impulse",
    "Verif.Math.C176_refused",
    "Verif.Math.C176_refuted"
   ],
   "note": "Proved: a sum over the second function prolonged by straight lines, bilinear, an impulse is neutral. Refuted: it is not symmetric, functions that vanish at the ends are prolonged to large values; 3 points are refused."
  },
  {
   "property": "C177",
   "status": "partial",
   "theorems": [
    "Verif.Progress.C177_loop",
    "Verif.Progress.C177_last",
    "Verif.Progress.C177_print",
    "Verif.Progress.C177_tick_partial",
    "Verif.Progress.C177_tick_refuted"
   ],
   "note": "Proved for progress and print_progress. Refuted for progress_tick: its last line is that of an iteration that does not exist (n+1, more than 100%), with undefined behaviour when there are at most 32 iterations."
  },
  {
   "property": "C178",
   "status": "partial",
   "theorems": [
    "Verif.FitsCols.C178_names",
    "Verif.FitsCols.C178_catalogue_partial",
    "Verif.FitsCols.C178_update_partial",
    "Verif.FitsCols.C178_struct",
    "Verif.FitsCols.C178_struct_partial",
    "Verif.FitsCols.C178_update_struct_refuted",
    "Verif.FitsCols.C178_case_refuted",
    "Verif.FitsCols.C178_missing"
   ],
   "note": "Proved for vectors of numbers that C125 reads back, and any number of columns and nested structures. Refuted: the update of a structure inside a structure writes its columns twice, after which they cannot be read; members that differ by the case cannot be read."
  },
  {
   "property": "C179",
   "status": "partial",
   "theorems": [
    "Verif.Astro.C179_value",
    "Verif.Astro.C179_field",
    "Verif.Astro.C179_order",
    "Verif.Astro.C179_bounds",
    "Verif.Astro.C179_few",
    "Verif.Astro.C179_flat_refuted",
    "Verif.Astro.C179_sky_refuted"
   ],
   "note": "Proved in exact arithmetic for every field whose cells have an area and are not so small that a ratio exceeds 2^63 (C179_field gives a simple condition). Refuted: flat fields convert a NaN to an integer; fields wider than half a turn get cells that are too small, up to an area of zero."
  },
  {
   "property": "C18",
   "status": "proved",
   "theorems": [
    "Verif.Find.C18_is_any_of"
   ],
   "note": ""
  },
  {
   "property": "C180",
   "status": "partial",
   "theorems": [
    "Verif.Prompt.C180_first",
    "Verif.Prompt.C180_any",
    "Verif.Prompt.C180_end_refuted",
    "Verif.Prompt.C180_words_refuted"
   ],
   "note": "Proved for every message, input and type. Refuted: at the end of the input the question is repeated for ever; texts of several words are refused."
  },
  {
   "property": "C181",
   "status": "partial",
   "theorems": [
    "Verif.Prompt.C181_int",
    "Verif.Prompt.C181_text",
    "Verif.Prompt.C181_text_refuted"
   ],
   "note": "Proved for signed integers and for texts. Refuted when the type is given explicitly as a text: several words, or an empty text, give the default."
  },
  {
   "property": "C182",
   "status": "partial",
   "theorems": [
    "Verif.Fitstool.C182_text",
    "Verif.Fitstool.C182_int_partial",
    "Verif.Fitstool.C182_real",
    "Verif.Fitstool.C182_truncated",
    "Verif.Fitstool.C182_quotes_refuted",
    "Verif.Fitstool.C182_number_refuted"
   ],
   "note": "Proved for texts without a quote at the start, for integers in the range of int and for numbers with a dot. Refuted: texts between quotes are refused, numbers with an exponent and no dot lose their fraction, large whole numbers and NaN give undefined behaviour."
  },
  {
   "property": "C183",
   "status": "partial",
   "theorems": [
    "Verif.Fitstool.C183_remove",
    "Verif.Fitstool.C183_make2d_none",
    "Verif.Fitstool.C183_make2d_partial",
    "Verif.Fitstool.C183_make2d_refuted",
    "Verif.Fitstool.C183_confirm",
    "Verif.Fitstool.C183_confirm_refuted"
   ],
   "note": "Removal is proved for all headers. make2d leaves the CDi_j keywords of the removed axes; questions never end when the input ends."
  },
  {
   "property": "C184",
   "status": "partial",
   "theorems": [
    "Verif.Fitstool.C184_force",
    "Verif.Fitstool.C184_ask",
    "Verif.Fitstool.C184_case_refuted"
   ],
   "note": "Proved for tables in which no name is there twice. Refuted: columns with lower case letters in their names cannot be removed."
  },
  {
   "property": "C185",
   "status": "partial",
   "theorems": [
    "Verif.Fitstool.C185_partial",
    "Verif.Fitstool.C185_twice_partial",
    "Verif.Fitstool.C185_rows_refuted",
    "Verif.Fitstool.C185_repeat_refuted"
   ],
   "note": "Proved for the first row, for columns that are asked for once. Refuted: the other rows are replaced by zeros; a column asked for twice is left as it was."
  },
  {
   "property": "C186",
   "status": "partial",
   "theorems": [
    "Verif.Fitstool.C186_split",
    "Verif.Fitstool.C186_nothing_lost",
    "Verif.Fitstool.C186_two",
    "Verif.Fitstool.C186_one",
    "Verif.Fitstool.C186_asked",
    "Verif.Fitstool.C186_dim_refuted"
   ],
   "note": "Proved: nothing is lost, the columns moved are those without the chosen dimension, and the choice for one or two dimensions. Refuted: with three dimensions the one chosen is not the most common one."
  },
  {
   "property": "C187",
   "status": "partial",
   "theorems": [
    "Verif.Fitstool.C187_text",
    "Verif.Fitstool.C187_number",
    "Verif.Fitstool.C187_rest",
    "Verif.Fitstool.C187_refuted"
   ],
   "note": "Proved for texts without quotes and numbers. Refuted: old keywords of the second file stay, quotes are doubled, logical values become 0."
  },
  {
   "property": "C188",
   "status": "partial",
   "theorems": [
    "Verif.Pixfit.C188_measured",
    "Verif.Pixfit.C188_unknown",
    "Verif.Pixfit.C188_refuted"
   ],
   "note": "Proved for arguments made of bands and complete measurements after a band. Refuted: a measurement without a band stops the program; one without its uncertainty is lost without an error."
  },
  {
   "property": "C189",
   "status": "partial",
   "theorems": [
    "Verif.Pixfit.C189_limits",
    "Verif.Pixfit.C189_first",
    "Verif.Pixfit.C189_refuted"
   ],
   "note": "Proved: the last block that gives a limit for a source sets both limits. Refuted: a limit that is not given again is erased."
  },
  {
   "property": "C19",
   "status": "partial",
   "theorems": [
    "Verif.Find.C19_match_small",
    "Verif.Find.C19_match_sound_partial",
    "Verif.Find.C19_match_unique_partial",
    "Verif.Find.C19_match_large_one_to_one",
    "Verif.Find.C19_match_refuted",
    "Verif.Find.C19_match_nan_refuted"
   ],
   "note": "Full for a vector of less than 64 elements and for vectors without repetition or NaN. The sorted path drops matches of repeated values and pairs NaN with numbers (refuted)."
  },
  {
   "property": "C190",
   "status": "proved",
   "theorems": [
    "Verif.Pixfit.C190_maps",
    "Verif.Pixfit.C190_bad",
    "Verif.Pixfit.C190_total",
    "Verif.Pixfit.C190_lost"
   ],
   "note": "The reader of numbers is a parameter. C190_lost states what happens to settings before the first band (lost without an error)."
  },
  {
   "property": "C191",
   "status": "partial",
   "theorems": [
    "Verif.Qregrid.C191_ratio_partial",
    "Verif.Qregrid.C191_odd",
    "Verif.Qregrid.C191_square",
    "Verif.Qregrid.C191_ratio_refuted",
    "Verif.Qregrid.C191_aspix_refuted"
   ],
   "note": "Flat sky, same orientation. Proved with a margin of half a pixel, and without margin for odd sizes. Refuted: half of the last pixel can be lost; with aspix= rows and columns are exchanged."
  },
  {
   "property": "C192",
   "status": "partial",
   "theorems": [
    "Verif.Circles.C192_read",
    "Verif.Circles.C192_mask",
    "Verif.Circles.C192_full",
    "Verif.Circles.C192_pixels",
    "Verif.Circles.C192_shift_refuted",
    "Verif.Circles.C192_system_refuted",
    "Verif.Circles.C192_empty_refuted",
    "Verif.Circles.C192_unit_refuted",
    "Verif.Circles.C192_overlap_refuted",
    "Verif.Circles.C192_coordinates"
   ],
   "note": "Proved: reading of the file, value of each pixel. Refuted: circles in pixels are not moved to indices from zero; the last system applies to all circles; a file without circles or a radius without unit aborts; overlaps are counted twice."
  },
  {
   "property": "C193",
   "status": "partial",
   "theorems": [
    "Verif.FindZero.C193_first",
    "Verif.FindZero.C193_last",
    "Verif.FindZero.C193_limits",
    "Verif.FindZero.C193_flat_refuted",
    "Verif.FindZero.C193_level_refuted"
   ],
   "note": "Proved when the level is not met at two successive points. Refuted: two successive zeros give NaN; the level of one standard deviation is not at the best chi2 plus one, because only one of the two chi2 is divided by the degrees of freedom."
  },
  {
   "property": "C194",
   "status": "partial",
   "theorems": [
    "Verif.GfitGroups.C194_partition",
    "Verif.GfitGroups.C194_leader",
    "Verif.GfitGroups.C194_together_partial",
    "Verif.GfitGroups.C194_measures",
    "Verif.GfitGroups.C194_chain_refuted",
    "Verif.GfitGroups.C194_orphan_refuted"
   ],
   "note": "Proved: partition, each group has a leader, measurements of each group. Sources that share are together if sharing is transitive. Refuted: chains are not followed; a source with its own measurement and a flux group in the same band keeps an orphan measurement."
  },
  {
   "property": "C195",
   "status": "partial",
   "theorems": [
    "Verif.GfitSearch.C195_best",
    "Verif.GfitSearch.C195_range",
    "Verif.GfitSearch.C195_refine_partial",
    "Verif.GfitSearch.C195_none_refuted",
    "Verif.GfitSearch.C195_stale_refuted",
    "Verif.GfitSearch.C195_limits_partial",
    "Verif.GfitSearch.C195_limits_refuted",
    "Verif.GfitSearch.C195_chi2_refuted",
    "Verif.GfitSearch.C195_pah"
   ],
   "note": "The fit at one temperature is a parameter. Proved: the best of all tried points, grids in range, second grid around the first best, f_PAH loop. Refuted: nothing allowed aborts; stale index after a round without improvement; limits of the wrong source; chi2 of early rounds rescaled."
  },
  {
   "property": "C196",
   "status": "partial",
   "theorems": [
    "Verif.GfitFit.C196_alone",
    "Verif.GfitFit.C196_cross_refuted",
    "Verif.GfitFit.C196_shared_refuted"
   ],
   "note": "The inverse is exact (C54, C90). Proved when no measurement is shared. Refuted when sources share a measurement: the cross terms are wiped by inplace_symmetrize."
  },
  {
   "property": "C197",
   "status": "partial",
   "theorems": [
    "Verif.Reflex.C197_pick_partial",
    "Verif.Reflex.C197_merge",
    "Verif.Reflex.C197_names_refuted",
    "Verif.Reflex.C197_types_refuted",
    "Verif.Reflex.C197_cube_refuted"
   ],
   "note": "Proved for flat structures (merge) and for nested structures without members in common (pick, vectors of 1 or 2 dimensions). Refuted: the names of nested structures are not compared, so that a.x gets the values of b.x; same name with another type aborts; vectors of 3 dimensions or more are not selected."
  },
  {
   "property": "C198",
   "status": "partial",
   "theorems": [
    "Verif.Catalog.C198_forced",
    "Verif.Catalog.C198_refreshed",
    "Verif.Catalog.C198_saved_partial",
    "Verif.Catalog.C198_positions_refuted",
    "Verif.Catalog.C198_selection_refuted"
   ],
   "note": "Proved with xmatch set, and by induction over all earlier runs if those that share the file had the same positions. Refuted: changed positions, or another selection of the same size, take the saved match."
  },
  {
   "property": "C199",
   "status": "proved",
   "theorems": [
    "Verif.ExtractGroups.C199_apertures",
    "Verif.ExtractGroups.C199_fitted",
    "Verif.ExtractGroups.C199_nested"
   ],
   "note": "Proved for any two tests of pairs, hence for any PSF, positions and thresholds. The position of a group is not part of the claim (mean of the coordinates, wrong across RA=0)."
  },
  {
   "property": "C20",
   "status": "proved",
   "theorems": [
    "Verif.Find.C20_set_intersection",
    "Verif.Find.C20_set_union",
    "Verif.Find.C20_sorted_versions",
    "Verif.Find.C20_membership"
   ],
   "note": ""
  },
  {
   "property": "C200",
   "status": "proved",
   "theorems": [
    "Verif.ExtractFit.C200_system",
    "Verif.ExtractFit.C200_best",
    "Verif.ExtractFit.C200_fails",
    "Verif.ExtractFit.C200_pixels",
    "Verif.ExtractFit.C200_trim"
   ],
   "note": "Exact arithmetic over an ordered field; the stamps of the PSF, the positions and the hull are inputs; the exact inverse stands for the inversion (C54, C90). The approximate errors of cell_approx are not modelled."
  },
  {
   "property": "C201",
   "status": "partial",
   "theorems": [
    "Verif.ExtractPost.C201_choice",
    "Verif.ExtractPost.C201_post_partial",
    "Verif.ExtractPost.C201_position_refuted",
    "Verif.ExtractPost.C201_offmap_refuted",
    "Verif.ExtractPost.C201_alone_refuted"
   ],
   "note": "Proved if all sources are on the map and a group exists before (the hypotheses on the normalised overlaps hold for each positive definite matrix, that is whenever the fit succeeds). Refuted otherwise: sources off the map mix up the indices, and without a group nothing is done; and the position of a new group can be that of other sources."
  },
  {
   "property": "C202",
   "status": "partial",
   "theorems": [
    "Verif.ExtractAper.C202_map",
    "Verif.ExtractAper.C202_flux",
    "Verif.ExtractAper.C202_box",
    "Verif.ExtractAper.C202_offmap_refuted",
    "Verif.ExtractAper.C202_right_refuted"
   ],
   "note": "Proved if the box of each group contains a pixel of the map. Refuted otherwise: a group at the left of the map (or above it) is undefined behaviour, and one at the right stops the program."
  },
  {
   "property": "C203",
   "status": "partial",
   "theorems": [
    "Verif.ExtractRes.C203_groups",
    "Verif.ExtractRes.C203_residual_partial",
    "Verif.ExtractRes.C203_model",
    "Verif.ExtractRes.C203_sum",
    "Verif.ExtractRes.C203_offmap_refuted"
   ],
   "note": "Proved if all the fitted sources are on the map (or if there are no groups). Refuted otherwise: is_grouped is indexed with the positions in the list of sources on the map."
  },
  {
   "property": "C204",
   "status": "partial",
   "theorems": [
    "Verif.Combine.C204_groups_partial",
    "Verif.Combine.C204_missing_refuted",
    "Verif.Combine.C204_empty_refuted"
   ],
   "note": "Proved if all the fits were made with make_groups and the first aperture group of each of them has a source with positive coverage. Refuted otherwise."
  },
  {
   "property": "C205",
   "status": "partial",
   "theorems": [
    "Verif.ReadPsf.C205_psf_partial",
    "Verif.ReadPsf.C205_diagonal_refuted",
    "Verif.ReadPsf.C205_edge_refuted"
   ],
   "note": "The square is shown to be the one around the brightest pixel, and nothing above 1/10000 of the peak is lost on its line and its column up to the distance to the closest edge. Refuted for the other pixels. Without beam smearing."
  },
  {
   "property": "C206",
   "status": "partial",
   "theorems": [
    "Verif.Residual.C206_residual_partial",
    "Verif.Residual.C206_limit_refuted"
   ],
   "note": "Proved if no source with a flux is less than half a pixel before the lower limit of the selection; refuted there."
  },
  {
   "property": "C207",
   "status": "partial",
   "theorems": [
    "Verif.Qaper.C207_flux_partial",
    "Verif.Qaper.C207_bad_refuted",
    "Verif.Qaper.C207_args_refuted"
   ],
   "note": "Proved if each pixel is at most 10% or completely in the circles of bad pixels. Refuted for the pixels in between. The files, the errors and the PSF itself are not modelled; less than three arguments are undefined behaviour."
  },
  {
   "property": "C208",
   "status": "partial",
   "theorems": [
    "Verif.Qaper.C208_neighbours_partial",
    "Verif.Qaper.C208_outside_refuted"
   ],
   "note": "Proved for neighbours that are independent on the pixels of the fit. Refuted for a neighbour outside of the region of the fit. linfit_pack is any least squares fit that fails exactly if the solution is not unique."
  },
  {
   "property": "C209",
   "status": "partial",
   "theorems": [
    "Verif.QaperBand.C209_band_partial",
    "Verif.QaperBand.C209_directory_refuted",
    "Verif.QaperBand.C209_tie_refuted",
    "Verif.QaperBand.C209_u38_refuted"
   ],
   "note": "Proved for a path that contains one longest pattern. Refuted if a directory has a longer pattern, for patterns of the same size, and for the band wfi_U38."
  },
  {
   "property": "C21",
   "status": "partial",
   "theorems": [
    "Verif.Find.C21_lower_bound",
    "Verif.Find.C21_upper_bound",
    "Verif.Find.C21_bounds",
    "Verif.Find.C21_bounds2",
    "Verif.Find.C21_equal_range",
    "Verif.Find.C21_equal_range_refuted",
    "Verif.Find.C21_equal_range_absent_refuted"
   ],
   "note": "lower_bound, upper_bound, bounds proved in full; equal_range returns the half-open range, not first and last index as documented, and positions for absent values (refuted)."
  },
  {
   "property": "C210",
   "status": "partial",
   "theorems": [
    "Verif.Fits2Ascii.C210_read_partial",
    "Verif.Fits2Ascii.C210_ids",
    "Verif.Fits2Ascii.C210_empty_refuted",
    "Verif.Fits2Ascii.C210_words_refuted",
    "Verif.Fits2Ascii.C210_digits_refuted"
   ],
   "note": "Proved for tables with rows and values that are words. Refuted for tables without rows (the program stops) and for texts with blanks; floating point numbers keep six digits only. Texts of values are inputs; the FITS file is not modelled."
  },
  {
   "property": "C211",
   "status": "partial",
   "theorems": [
    "Verif.Fits2Ascii.C211_rename",
    "Verif.Fits2Ascii.C211_split_partial",
    "Verif.Fits2Ascii.C211_split_refuted",
    "Verif.Fits2Ascii.C211_rename_refuted"
   ],
   "note": "Proved for names that are not empty. Refuted for columns without a name, which all get the same one, and for names given in another case."
  },
  {
   "property": "C212",
   "status": "partial",
   "theorems": [
    "Verif.FindSrc.C212_nearest_partial",
    "Verif.FindSrc.C212_few_refuted",
    "Verif.FindSrc.C212_range_refuted",
    "Verif.FindSrc.C212_missing"
   ],
   "note": "Proved if the catalogue has as many sources as are asked for. Refuted for smaller catalogues, and for several indices out of range. The distance is a function."
  },
  {
   "property": "C213",
   "status": "partial",
   "theorems": [
    "Verif.Subsrc.C213_subtract_partial",
    "Verif.Subsrc.C213_text_refuted",
    "Verif.Subsrc.C213_ignored_refuted",
    "Verif.Subsrc.C213_band"
   ],
   "note": "Proved for FITS catalogues and for text catalogues all of whose sources are wanted. Refuted for other text catalogues. make_psf and the astrometry are functions."
  },
  {
   "property": "C214",
   "status": "partial",
   "theorems": [
    "Verif.VifComplex.C214_arith",
    "Verif.VifComplex.C214_scalar",
    "Verif.VifComplex.C214_norm",
    "Verif.VifComplex.C214_norm_refuted"
   ],
   "note": "The operators are proved over the reals, without rounding. Refuted for norm, which is the square of the modulus with the default implementation."
  },
  {
   "property": "C215",
   "status": "partial",
   "theorems": [
    "Verif.Qstack2.C215_ids_partial",
    "Verif.Qstack2.C215_ids_error",
    "Verif.Qstack2.C215_mean",
    "Verif.Qstack2.C215_median",
    "Verif.Qstack2.C215_bootstrap_partial",
    "Verif.Qstack2.C215_weights_refuted",
    "Verif.Qstack2.C215_median_refuted",
    "Verif.Qstack2.C215_order_refuted",
    "Verif.Qstack2.C215_median_bootstrap"
   ],
   "note": "Proved for bounds in the right order, and for bootstraps without weights. Refuted for weights with bootstraps or with the median, and for bounds in the wrong order. Cubes without NaN; the files are not modelled."
  },
  {
   "property": "C216",
   "status": "partial",
   "theorems": [
    "Verif.Qstack2.C216_centre_partial",
    "Verif.Qstack2.C216_direction_refuted"
   ],
   "note": "Proved for positions at the centre of a pixel, but for the last line and column. Refuted for others: the cutout is moved in the wrong direction."
  },
  {
   "property": "C217",
   "status": "partial",
   "theorems": [
    "Verif.GetGal.C217_files_partial",
    "Verif.GetGal.C217_reference",
    "Verif.GetGal.C217_sizes_refuted",
    "Verif.GetGal.C217_no_zero",
    "Verif.GetGal.C217_sizes_error"
   ],
   "note": "Proved if at most one size is given, or a radius. Refuted if each image has its size. qstack (C118), the FITS files and the astrometry are inputs."
  },
  {
   "property": "C218",
   "status": "partial",
   "theorems": [
    "Verif.GetGal.C218_names_partial",
    "Verif.GetGal.C218_names_refuted"
   ],
   "note": "Proved for one image or one source. Refuted for images without short name and for names that can be cut at several places."
  },
  {
   "property": "C219",
   "status": "partial",
   "theorems": [
    "Verif.FluxCube.C219_flux_partial",
    "Verif.FluxCube.C219_large_partial",
    "Verif.FluxCube.C219_large_refuted",
    "Verif.Qaper.exists_leastSquares"
   ],
   "note": "Proved with the pixels brighter than the fraction; with large_bg for a PSF that vanishes out of them, and refuted otherwise. Exact arithmetic; linfit is any solver of the least squares problem (exists_leastSquares shows that there is one). Not modelled: logdisp, smoothing by a beam, cropping of the PSF, residual statistics."
  },
  {
   "property": "C22",
   "status": "proved",
   "theorems": [
    "Verif.Find.BMap.C22_astar_find",
    "Verif.Find.BMap.C22_empty",
    "Verif.Find.BMap.path_ge",
    "Verif.Find.BMap.path_exists"
   ],
   "note": "Fuel bound dims[0]+dims[1] shows termination."
  },
  {
   "property": "C220",
   "status": "partial",
   "theorems": [
    "Verif.FluxCube.C220_bootstrap_partial",
    "Verif.FluxCube.C220_image_refuted",
    "Verif.FluxCube.C220_batch_partial",
    "Verif.FluxCube.C220_frac_refuted"
   ],
   "note": "Proved for the fluxes; refuted for the image, which is that of the last draw. Batch: proved if lines that change the fraction give a PSF; refuted otherwise."
  },
  {
   "property": "C221",
   "status": "partial",
   "theorems": [
    "Verif.Str.C221_blocks_partial",
    "Verif.Str.C221_lists_refuted",
    "Verif.Str.C221_empty_separator"
   ],
   "note": "Proved when no separator follows the first opening except in its block; refuted otherwise: the separators are searched up to the end of the text, not of the block. An empty separator is an endless loop."
  },
  {
   "property": "C222",
   "status": "partial",
   "theorems": [
    "Verif.PsfFit.C222_flux",
    "Verif.PsfFit.C222_nobg",
    "Verif.PsfFit.C222_residual_partial",
    "Verif.PsfFit.C222_residual_refuted",
    "Verif.PsfFit.C222_table",
    "Verif.PsfFit.C222_arguments_partial",
    "Verif.PsfFit.C222_arguments_refuted"
   ],
   "note": "Flux, background and residual proved for all images without zero errors; linfit is any solver of the least squares problem. Refuted: the name of the residual with nobg, and the call with two arguments. Exact arithmetic; files, make_psf and the errors of the fluxes are not modelled here."
  },
  {
   "property": "C223",
   "status": "partial",
   "theorems": [
    "Verif.Qconvol.C223_trim",
    "Verif.Qconvol.C223_kernel_partial",
    "Verif.Qconvol.C223_edge_refuted",
    "Verif.Qconvol.C223_ring_refuted",
    "Verif.Qconvol.C223_fwhm_refuted",
    "Verif.Qconvol.C223_side",
    "Verif.Qconvol.C223_small_refuted"
   ],
   "note": "Proved for kernels that vanish beyond some distance that fits in the file, and not at a smaller one on the cross of the brightest pixel; refuted otherwise. The width of the Gaussian is refuted. Exact arithmetic; files and pixel scale are not modelled."
  },
  {
   "property": "C224",
   "status": "partial",
   "theorems": [
    "Verif.Refgen.C224_wrap_partial",
    "Verif.Refgen.C224_long_refuted"
   ],
   "note": "Proved for messages whose words are not longer than a line; refuted otherwise: the loop never ends."
  },
  {
   "property": "C225",
   "status": "partial",
   "theorems": [
    "Verif.Refgen.C225_members_partial",
    "Verif.Refgen.C225_forward_refuted"
   ],
   "note": "Proved for structures declared once, whose declarations follow them; refuted with a forward declaration. The tree of declarations is the input of the model; included files and the names of unnamed structures are not modelled."
  },
  {
   "property": "C226",
   "status": "partial",
   "theorems": [
    "Verif.Refgen.C226_code_partial",
    "Verif.Refgen.C226_copy",
    "Verif.Refgen.C226_error",
    "Verif.Refgen.C226_warning_refuted",
    "Verif.Refgen.C226_brace_refuted",
    "Verif.Refgen.C226_end_refuted",
    "Verif.Refgen.C226_nested_refuted"
   ],
   "note": "Proved if no two structures end on the same line and if each one is on one line or has its closing brace below its first character, followed by a character; refuted otherwise and with warnings. The extents given by clang end after the closing brace (assumption on libclang)."
  },
  {
   "property": "C227",
   "status": "partial",
   "theorems": [
    "Verif.Rotate.C227_rotate_partial",
    "Verif.Rotate.C227_exact_partial",
    "Verif.Rotate.C227_quarter_partial",
    "Verif.Rotate.C227_half_partial",
    "Verif.Rotate.C227_turn",
    "Verif.Rotate.C227_cubic_quarter_partial",
    "Verif.Rotate.C227_zero_refuted",
    "Verif.Rotate.C227_cubic_refuted"
   ],
   "note": "Proved for images of two rows and two columns at least, for all angles, for positions that are not on the last row or column of the image; refuted there: a rotation by zero loses them (three rows and columns with rotate_bicubic). Real numbers, no rounding."
  },
  {
   "property": "C228",
   "status": "partial",
   "theorems": [
    "Verif.Rotate.C228_scale_partial",
    "Verif.Rotate.C228_reduce_partial",
    "Verif.Rotate.C228_centre_partial",
    "Verif.Rotate.C228_one_refuted",
    "Verif.Rotate.C228_zero_refuted"
   ],
   "note": "Proved for factors that are not zero and positions that can be converted to integers, outside of the last row and column; refuted there, and for a factor of zero (undefined behaviour). No rounding."
  },
  {
   "property": "C229",
   "status": "partial",
   "theorems": [
    "Verif.FindPrior.C229_list_partial",
    "Verif.FindPrior.C229_many_refuted",
    "Verif.FindPrior.C229_empty_refuted"
   ],
   "note": "Proved for all catalogues and circles (at least one), for circles with at most nsrc sources; refuted with more of them (the farthest are lost) and for a region file without circles (the program stops). The filter on the masses is given by its result."
  },
  {
   "property": "C23",
   "status": "proved",
   "theorems": [
    "Verif.Index.C23_step",
    "Verif.Index.C23_enumerates",
    "Verif.Index.C23_once"
   ],
   "note": "All lists of positive dimensions."
  },
  {
   "property": "C230",
   "status": "partial",
   "theorems": [
    "Verif.FindPrior.C230_round_trip_partial",
    "Verif.FindPrior.C230_empty_refuted",
    "Verif.FindPrior.C230_nan_refuted"
   ],
   "note": "Proved for files with at least one source whose redshift and mass are read back from their text after a blank; refuted for a file without sources (the program stops) and for a source without redshift (nan after a blank is not accepted: no source is converted)."
  },
  {
   "property": "C231",
   "status": "partial",
   "theorems": [
    "Verif.Str.C231_header",
    "Verif.Str.C231_paragraph",
    "Verif.Str.C231_item",
    "Verif.Str.C231_bullet_partial",
    "Verif.Str.C231_bullet_refuted"
   ],
   "note": "Bullets proved for names of at most 74 characters; refuted for longer ones (the description is not wrapped)."
  },
  {
   "property": "C232",
   "status": "partial",
   "theorems": [
    "Verif.FitsR2c.C232_columns_partial",
    "Verif.FitsR2c.C232_one_row",
    "Verif.FitsR2c.C232_character_refuted",
    "Verif.FitsR2c.C232_unsigned_refuted",
    "Verif.FitsR2c.C232_scalar_refuted",
    "Verif.FitsR2c.C232_dims_refuted",
    "Verif.FitsR2c.C232_same_refuted"
   ],
   "note": "Proved for all tables without columns of single characters (TFORM = A) and of unsigned 32-bit integers, which are undefined behaviour; the dimensions of the values of a row are lost, and the test against writing over the input is bypassed by an explicit !."
  },
  {
   "property": "C233",
   "status": "partial",
   "theorems": [
    "Verif.PixCutout.C233_cutouts_partial",
    "Verif.PixCutout.C233_no_position",
    "Verif.PixCutout.C233_arguments_refuted",
    "Verif.PixCutout.C233_extension_refuted",
    "Verif.PixCutout.C233_last_refuted"
   ],
   "note": "Proved for all maps whose image is in the first HDU and positions that are not half-integers; refuted for images in an extension (the keywords of the first HDU are written), for positions whose cutout has only the last row or column, and without arguments. Exact coordinates."
  },
  {
   "property": "C234",
   "status": "partial",
   "theorems": [
    "Verif.RandSrc.C234_positions_partial",
    "Verif.RandSrc.C234_refused",
    "Verif.RandSrc.C234_origin_refuted"
   ],
   "note": "Proved for all catalogues not on a line, all sequences of random numbers; refuted for fields across RA = 0. Exact coordinates."
  },
  {
   "property": "C235",
   "status": "partial",
   "theorems": [
    "Verif.Radec2Pix.C235_pixels_partial",
    "Verif.Radec2Pix.C235_refused",
    "Verif.Radec2Pix.C235_sexagesimal_refuted",
    "Verif.Radec2Pix.C235_sex2deg"
   ],
   "note": "Proved for valid positions and for wrong decimal ones; refuted for wrong sexagesimal ones (NaN is printed, without an error). The conversion to pixels is a given function."
  },
  {
   "property": "C236",
   "status": "partial",
   "theorems": [
    "Verif.PhotInfo.C236_rows_partial",
    "Verif.PhotInfo.C236_none_refuted",
    "Verif.PhotInfo.C236_2000_refuted",
    "Verif.PhotInfo.C236_width_refuted"
   ],
   "note": "Proved for all catalogues with a detection, if their number is not 2000; without any, or with exactly 2000, the program stops. The areas, the distances and the printed form of the values are not modelled. Exact numbers."
  },
  {
   "property": "C237",
   "status": "proved",
   "theorems": [
    "Verif.Catalog.C237_struct",
    "Verif.Catalog.C237_returns",
    "Verif.Catalog.C237_stops",
    "Verif.Catalog.C237_scalar"
   ],
   "note": "For structures whose members are vectors, with different names; nested structures are not modelled."
  },
  {
   "property": "C238",
   "status": "partial",
   "theorems": [
    "Verif.CatComments.C238_first",
    "Verif.CatComments.C238_tree_partial",
    "Verif.CatComments.C238_once",
    "Verif.CatComments.C238_blank_refuted",
    "Verif.CatComments.C238_depth"
   ],
   "note": "Proved for names without blanks and lines that fit in the width (the others are wrapped as in C39); two names that differ by blanks stop the program."
  },
  {
   "property": "C239",
   "status": "partial",
   "theorems": [
    "Verif.GfitPrep.C239_sources_partial",
    "Verif.GfitPrep.C239_groups_partial",
    "Verif.GfitPrep.C239_selected",
    "Verif.GfitPrep.C239_option_refuted",
    "Verif.GfitPrep.C239_zero_refuted"
   ],
   "note": "Proved for all catalogues with positive limits, for the groups if there is a limit for the sources and their errors are positive; the limit of the groups alone is ignored, and a group with an error of zero gets a valid error. Exact numbers, infinite fluxes are not a number."
  },
  {
   "property": "C24",
   "status": "proved",
   "theorems": [
    "Verif.Math.C24_partial_functions",
    "Verif.Math.C24_reduce",
    "Verif.Math.C24_bad_dim",
    "Verif.Math.C24_run_dim",
    "Verif.Math.C24_run_dim_refused"
   ],
   "note": "C24_run_dim is for run_dim on several vectors at once."
  },
  {
   "property": "C240",
   "status": "proved",
   "theorems": [
    "Verif.ExtractFit.C240_cells",
    "Verif.ExtractFit.C240_smaller",
    "Verif.ExtractFit.C240_dark"
   ],
   "note": "For all maps, sources, priors and backgrounds for which the whole fit succeeds; exact reals, the inverse is exact."
  },
  {
   "property": "C241",
   "status": "partial",
   "theorems": [
    "Verif.Sed.C241_convert_partial",
    "Verif.Sed.C241_rows",
    "Verif.Sed.C241_rows_refuted"
   ],
   "note": "The conversion is proved for filters that are covered by the spectrum and a non zero flux, in exact reals; the rows of wavelengths and of fluxes are not checked to be as many, which is refuted."
  },
  {
   "property": "C242",
   "status": "partial",
   "theorems": [
    "Verif.Pixfit.C242_script_partial",
    "Verif.Pixfit.C242_combine_refuted",
    "Verif.Pixfit.C242_aperture_refuted",
    "Verif.Pixfit.C242_arguments_refuted"
   ],
   "note": "The calls of pixfit-extract are proved for names that a shell leaves as they are; the call of pixfit-combine always stops, the size of the apertures of the groups is not passed on and the number of arguments is not checked."
  },
  {
   "property": "C243",
   "status": "partial",
   "theorems": [
    "Verif.Sentry.C243_seen_partial",
    "Verif.Sentry.C243_stop",
    "Verif.Sentry.C243_look",
    "Verif.Sentry.C243_assign_refuted",
    "Verif.Sentry.C243_struct_refuted"
   ],
   "note": "Proved for programs that only create, look at, move and destroy the values; assigning to such a value loses an error, and the members of a structure are read into temporary values so that a missing one stops the program before the caller can look."
  },
  {
   "property": "C244",
   "status": "partial",
   "theorems": [
    "Verif.Io.C244_write_partial",
    "Verif.Io.C244_place",
    "Verif.Io.C244_roundtrip_partial",
    "Verif.Io.C244_less_refuted",
    "Verif.Io.C244_more_refuted"
   ],
   "note": "Proved for groups whose vectors have as many columns as the number given; this is not checked: with a smaller number the lines are mixed, with a larger one memory is read out of bounds. The elements are already formatted, as in C82."
  },
  {
   "property": "C245",
   "status": "partial",
   "theorems": [
    "Verif.CatList.C245_list_partial",
    "Verif.CatList.C245_words_partial",
    "Verif.CatList.C245_text",
    "Verif.CatList.C245_break_refuted"
   ],
   "note": "Proved for names, sources, files and comments without line breaks and comments that fit in a line; of longer comments the words are kept. A name with line breaks can make one catalogue look like two."
  },
  {
   "property": "C246",
   "status": "partial",
   "theorems": [
    "Verif.RandomPdf.C246_pdf_partial",
    "Verif.RandomPdf.C246_discrete_partial",
    "Verif.RandomPdf.C246_zero_refuted",
    "Verif.RandomPdf.C246_nan_refuted",
    "Verif.RandomPdf.C246_empty_refuted",
    "Verif.RandomPdf.C246_single_refuted",
    "Verif.RandomPdf.C246_short_refuted"
   ],
   "note": "Proved with exact numbers for valid inputs and uniform numbers that are not zero, with the distributions of the standard library as in libstdc++ 13. The inputs are not checked: no weights, a single position and too few densities give wrong numbers or read out of bounds."
  },
  {
   "property": "C247",
   "status": "partial",
   "theorems": [
    "Verif.Refgen.C247_safe",
    "Verif.Refgen.C247_cut",
    "Verif.Refgen.C247_marks_partial",
    "Verif.Refgen.C247_end_refuted",
    "Verif.Refgen.C247_lines_refuted"
   ],
   "note": "Memory safety and the lengths are proved for all ranges. The marks are proved for ranges within the line; a range up to the end of the line is not marked, and a range that ends in another line marks wrong columns."
  },
  {
   "property": "C248",
   "status": "partial",
   "theorems": [
    "Verif.FitsExtract.C248_copies_partial",
    "Verif.FitsExtract.C248_fails",
    "Verif.FitsExtract.C248_others",
    "Verif.FitsExtract.C248_dirs_partial",
    "Verif.FitsExtract.C248_copy_refuted",
    "Verif.FitsExtract.C248_wrap_refuted",
    "Verif.FitsExtract.C248_dirs_refuted"
   ],
   "note": "Proved for numbers of HDUs that fit an int and copies that succeed. A copy that fails is reported as a success; a number above 2^32 wraps around; the directory of a name that starts with ! is made under a wrong name."
  },
  {
   "property": "C249",
   "status": "partial",
   "theorems": [
    "Verif.Qxmatch2.C249_two",
    "Verif.Qxmatch2.C249_self",
    "Verif.Qxmatch2.C249_none",
    "Verif.Qxmatch2.C249_saved",
    "Verif.Qxmatch2.C249_empty_refuted"
   ],
   "note": "The columns and what is saved are proved for all arguments. An empty catalogue is reported as an error but matched and saved all the same."
  },
  {
   "property": "C25",
   "status": "partial",
   "theorems": [
    "Verif.Math.C25_min",
    "Verif.Math.C25_max",
    "Verif.Math.C25_minmax",
    "Verif.Math.C25_agree",
    "Verif.Math.C25_empty",
    "Verif.Math.C25_ids_refuted"
   ],
   "note": "Values proved in full; minmax_ids returns the last position of the maximum where max_id returns the first (refuted agreement of indices on ties)."
  },
  {
   "property": "C250",
   "status": "partial",
   "theorems": [
    "Verif.Imgtool.C250_multiply",
    "Verif.Imgtool.C250_convolve",
    "Verif.Imgtool.C250_rotate",
    "Verif.Imgtool.C250_nothing",
    "Verif.Imgtool.C250_number",
    "Verif.Imgtool.C250_status_refuted",
    "Verif.Imgtool.C250_help_refuted"
   ],
   "note": "What is written is proved for all arguments and images. The status of the program is 0 for all errors, and the way to get help that the program prints gives an error."
  },
  {
   "property": "C251",
   "status": "partial",
   "theorems": [
    "Verif.ColsInfo.C251_all_partial",
    "Verif.ColsInfo.C251_sound",
    "Verif.ColsInfo.C251_logical_refuted",
    "Verif.ColsInfo.C251_norow_refuted"
   ],
   "note": "Each entry of the list is proved right for all tables; that all columns are listed is proved for the types that are known. Logical and complex columns are left out, and a table without rows cannot be listed if it has a column of bytes."
  },
  {
   "property": "C252",
   "status": "partial",
   "theorems": [
    "Verif.PrettyType.C252_distinct_partial",
    "Verif.PrettyType.C252_readable_partial",
    "Verif.PrettyType.C252_const_refuted",
    "Verif.PrettyType.C252_name_refuted"
   ],
   "note": "Proved for the types with a name and all vectors of them. References, pointers and constants have the mangled name of the compiler, and constants behind them are lost."
  },
  {
   "property": "C253",
   "status": "partial",
   "theorems": [
    "Verif.HashCategory.C253_const_partial",
    "Verif.HashCategory.C253_category_refuted"
   ],
   "note": "Proved for calls that pass the same arguments as variables and the same as temporaries. A variable and a temporary of the same value give different texts to SHA-1, so the hashes differ unless SHA-1 has a collision there."
  },
  {
   "property": "C254",
   "status": "partial",
   "theorems": [
    "Verif.StreamFormat.C254_text_partial",
    "Verif.StreamFormat.C254_state_partial",
    "Verif.StreamFormat.C254_width_refuted",
    "Verif.StreamFormat.C254_throw_refuted",
    "Verif.StreamFormat.C254_precision_refuted"
   ],
   "note": "Proved for streams with no width set that do not throw on badbit, and for precisions that fit in an int. A width is set again after the object, a stream that throws on badbit throws at any formatted object, and precisions are taken modulo 2^32."
  },
  {
   "property": "C255",
   "status": "partial",
   "theorems": [
    "Verif.Demangled.C255_spaces_partial",
    "Verif.Demangled.C255_distinct_partial",
    "Verif.Demangled.C255_operator_refuted",
    "Verif.Demangled.C255_void_refuted"
   ],
   "note": "Proved, for the pass on template arguments only, for names where every < is closed and that do not contain void. The last character of names with operator< is replaced by >, and a last argument void is removed where it is no parameter of enable_if. The replacements of \"unsigned long\" and of \"ul\" are not modelled."
  },
  {
   "property": "C26",
   "status": "partial",
   "theorems": [
    "Verif.Math.C26_median",
    "Verif.Math.C26_median_perm",
    "Verif.Math.C26_percentile_partial",
    "Verif.Math.C26_percentile_one_partial",
    "Verif.Math.C26_percentiles",
    "Verif.Math.C26_empty",
    "Verif.Math.C26_percentile_nan_refuted"
   ],
   "note": "median in full; percentile for u < 1, and u = 1 without NaN. percentile(v,1) with a NaN in v returns NaN (refuted)."
  },
  {
   "property": "C27",
   "status": "proved",
   "theorems": [
    "Verif.Math.C27_first_bin",
    "Verif.Math.C27_histogram",
    "Verif.Math.C27_total",
    "Verif.Math.C27_weighted",
    "Verif.Math.C27_weighted_mismatch",
    "Verif.Math.C27_agree",
    "Verif.Math.C27_func",
    "Verif.Math.C27_2d",
    "Verif.Math.C27_func_skips"
   ],
   "note": "std::partition by contract. The by-index variant does not call the function for bins after one that takes all remaining data (C27_func_skips)."
  },
  {
   "property": "C28",
   "status": "partial",
   "theorems": [
    "Verif.Math.C28_cumul_partial",
    "Verif.Math.C28_cumul_empty_refuted",
    "Verif.Math.C28_cumul1",
    "Verif.Math.C28_cumul_reverse_actual",
    "Verif.Math.C28_cumul_reverse_partial",
    "Verif.Math.C28_cumul_reverse_refuted"
   ],
   "note": "cumul for non-empty vectors; empty vectors read out of bounds (refuted). cumul_reverse only adds the next element (C28_cumul_reverse_actual), correct for up to two elements, refuted for three."
  },
  {
   "property": "C29",
   "status": "partial",
   "theorems": [
    "Verif.Math.C29_integrate_partial",
    "Verif.Math.C29_full",
    "Verif.Math.C29_additive_partial",
    "Verif.Math.C29_full_agree",
    "Verif.Math.C29_last_refuted",
    "Verif.Math.C29_hinted",
    "Verif.Math.C29_unhinted_partial",
    "Verif.Math.C29_bins",
    "Verif.Math.C29_bins_in_partial",
    "Verif.Math.C29_bins_in_refuted",
    "Verif.Math.C29_bins_across_partial"
   ],
   "note": "Over the reals against the interval integral of Mathlib. Missing: empty interval at the last point (out of bounds access, refuted); binned integrate across several bins (wrong value, refuted)."
  },
  {
   "property": "C30",
   "status": "proved",
   "theorems": [
    "Verif.Math.C30_inside",
    "Verif.Math.C30_below",
    "Verif.Math.C30_above",
    "Verif.Math.C30_knot",
    "Verif.Math.C30_between",
    "Verif.Math.C30_linear",
    "Verif.Math.C30_vector",
    "Verif.Math.C30_refused",
    "Verif.Math.C30_error"
   ],
   "note": ""
  },
  {
   "property": "C31",
   "status": "partial",
   "theorems": [
    "Verif.Spline.C31_continuous",
    "Verif.Spline.C31_smooth_partial",
    "Verif.Spline.C31_kink_refuted",
    "Verif.Spline.C31_vector",
    "Verif.Spline.C31_regular",
    "Verif.Spline.C31_refused"
   ],
   "note": "Passes through all knots and is continuous for any spacing; twice continuously differentiable (Mathlib ContDiff) on regular grids and with equal steps. With unequal steps the first derivative jumps at an interior knot unless the data are equal there (exact characterisation): line 286 divides by the wrong step. Exact real arithmetic."
  },
  {
   "property": "C32",
   "status": "proved",
   "theorems": [
    "Verif.Math.C32_rgen",
    "Verif.Math.C32_rgen_small",
    "Verif.Math.C32_rgen_step",
    "Verif.Math.C32_rgen_step_monotone",
    "Verif.Math.C32_rgen_step_bad",
    "Verif.Math.C32_make_bins"
   ],
   "note": "Over an ordered field, no rounding."
  },
  {
   "property": "C33",
   "status": "partial",
   "theorems": [
    "Verif.Hull.C33_hull_partial",
    "Verif.Hull.C33_turns",
    "Verif.Hull.C33_inside",
    "Verif.Hull.C33_vector",
    "Verif.Hull.C33_empty_refuted",
    "Verif.Hull.C33_single_refuted",
    "Verif.Hull.C33_line_refuted"
   ],
   "note": "Any non-empty set: closed polygon of input points with every input point on the inner side; not on a line: strictly convex, and in_convex_hull is membership in the mathematical convex hull. Empty set: undefined behaviour; one point or points on a line: in_convex_hull accepts points outside. Exact arithmetic, std::sort by contract."
  },
  {
   "property": "C34",
   "status": "proved",
   "theorems": [
    "Verif.Str.C34_split",
    "Verif.Str.C34_collapse_split",
    "Verif.Str.C34_split_collapse",
    "Verif.Str.C34_collapse",
    "Verif.Str.C34_empty_separator"
   ],
   "note": "An empty separator makes split run for ever (C34_empty_separator)."
  },
  {
   "property": "C35",
   "status": "proved",
   "theorems": [
    "Verif.Str.C35_replace",
    "Verif.Str.C35_split_collapse",
    "Verif.Str.C35_identity",
    "Verif.Str.C35_absent",
    "Verif.Str.C35_empty_pattern"
   ],
   "note": "An empty pattern makes replace run for ever (C35_empty_pattern)."
  },
  {
   "property": "C36",
   "status": "proved",
   "theorems": [
    "Verif.Str.C36_trim",
    "Verif.Str.C36_idempotent",
    "Verif.Str.C36_begins_with",
    "Verif.Str.C36_ends_with",
    "Verif.Str.C36_erase_begin",
    "Verif.Str.C36_erase_end",
    "Verif.Str.C36_counts"
   ],
   "note": ""
  },
  {
   "property": "C37",
   "status": "proved",
   "theorems": [
    "Verif.Str.C37_metric",
    "Verif.Str.C37_value"
   ],
   "note": ""
  },
  {
   "property": "C38",
   "status": "proved",
   "theorems": [
    "Verif.Str.C38_align"
   ],
   "note": ""
  },
  {
   "property": "C39",
   "status": "partial",
   "theorems": [
    "Verif.Str.C39_cut_partial",
    "Verif.Str.C39_cut_refuted",
    "Verif.Str.C39_wrap",
    "Verif.Str.C39_wrap_indent"
   ],
   "note": "cut drops the last |s| mod n characters (refuted); wrap proved without ellipsis for a blank indentation no wider than the width."
  },
  {
   "property": "C40",
   "status": "proved",
   "theorems": [
    "Verif.Sha.C40_words",
    "Verif.Sha.C40_sha1"
   ],
   "note": ""
  },
  {
   "property": "C41",
   "status": "partial",
   "theorems": [
    "Verif.Sha.C41_refuted",
    "Verif.Sha.C41_inputs_partial"
   ],
   "note": "False as stated: hash(\"\",N) = hash(N,\"\") for N the type name. Proved when texts and type names use disjoint characters."
  },
  {
   "property": "C42",
   "status": "partial",
   "theorems": [
    "Verif.Str.C42_replace_partial",
    "Verif.Str.C42_identity_partial",
    "Verif.Str.C42_empty_match_refuted",
    "Verif.Str.C42_group_refuted",
    "Verif.Str.C42_anchor"
   ],
   "note": "For engines without empty matches and with all groups taking part; otherwise refuted."
  },
  {
   "property": "C43",
   "status": "proved",
   "theorems": [
    "Verif.Io.C43_time_str",
    "Verif.Io.C43_form",
    "Verif.Io.C43_injective",
    "Verif.Io.C43_short",
    "Verif.Io.C43_seconds_str"
   ],
   "note": "Durations are real numbers (no rounding). A duration of zero or less is undefined behaviour in time_str."
  },
  {
   "property": "C44",
   "status": "partial",
   "theorems": [
    "Verif.Io.C44_shapes",
    "Verif.Io.C44_name",
    "Verif.Io.C44_file",
    "Verif.Io.C44_dir",
    "Verif.Io.C44_root",
    "Verif.Io.C44_dir1_refuted",
    "Verif.Io.C44_basename_partial",
    "Verif.Io.C44_extension",
    "Verif.Io.C44_extension_dir",
    "Verif.Io.C44_directorize",
    "Verif.Io.C44_absolute"
   ],
   "note": "False for a single component with a trailing separator: get_basename(\"foo/\") is \"/\" (refuted)."
  },
  {
   "property": "C45",
   "status": "partial",
   "theorems": [
    "Verif.Io.C45_words",
    "Verif.Io.C45_single_partial",
    "Verif.Io.C45_leading",
    "Verif.Io.C45_single_refuted"
   ],
   "note": "Proved for blank-separated words; with a single delimiter a word starting with the delimiter never advances (refuted)."
  },
  {
   "property": "C46",
   "status": "partial",
   "theorems": [
    "Verif.Io.C46_scalar_partial",
    "Verif.Io.C46_vector_partial",
    "Verif.Io.C46_failed_refuted",
    "Verif.Io.C46_other_refuted",
    "Verif.Io.C46_dashes"
   ],
   "note": "Proved when no argument fails to convert; a failed conversion overwrites the variable and blocks later arguments (refuted)."
  },
  {
   "property": "C47",
   "status": "proved",
   "theorems": [
    "Verif.Thread.Queue.C47_no_fault",
    "Verif.Thread.Queue.C47_fifo",
    "Verif.Thread.Queue.C47_pop_false_iff",
    "Verif.Thread.Queue.C47_pop_value",
    "Verif.Thread.Queue.C47_size",
    "Verif.Thread.Queue.C47_race_free",
    "Verif.Thread.Queue.C47_destroy",
    "Verif.Thread.Queue.C47_clear"
   ],
   "note": "All interleavings of one producer and one consumer (heap with address reuse); sequential consistency. clear()/destructor with quiescent threads."
  },
  {
   "property": "C48",
   "status": "proved",
   "theorems": [
    "Verif.Thread.Worker.C48_wait",
    "Verif.Thread.Worker.C48_prefix",
    "Verif.Thread.Worker.C48_wait_terminates"
   ],
   "note": "LTS of user and consumer thread over the proved queue interface; jobs assumed to return."
  },
  {
   "property": "C49",
   "status": "proved",
   "theorems": [
    "Verif.Thread.Pool.C49_consume_then_join",
    "Verif.Thread.Pool.C49_at_most_once",
    "Verif.Thread.Pool.C49_round_robin",
    "Verif.Thread.Pool.C49_empty_pool"
   ],
   "note": "All schedules, any number of workers; process on an empty pool has no legal target."
  },
  {
   "property": "C50",
   "status": "partial",
   "theorems": [
    "Verif.Thread.ParallelFor.C50_once_partial",
    "Verif.Thread.ParallelFor.C50_always_partial",
    "Verif.Thread.ParallelFor.C50_terminates_partial",
    "Verif.Thread.ParallelFor.C50_sequential",
    "Verif.Thread.ParallelFor.C50_single_worker_refuted",
    "Verif.Thread.ParallelFor.C50_offset_refuted",
    "Verif.Thread.ParallelFor.C50_offset_outside_refuted"
   ],
   "note": "Holds for first index 0 and at least two workers (or sequential mode); refuted for one worker and for a non-zero first index."
  },
  {
   "property": "C51",
   "status": "partial",
   "theorems": [
    "Verif.Mat.C51_solve",
    "Verif.Mat.C51_fails_iff",
    "Verif.Mat.C51_free_solve",
    "Verif.Mat.C51_no_pivot_fails_refuted"
   ],
   "note": "Exact arithmetic (ordered field), NO_LAPACK code. Solutions are right with and without pivoting; with pivoting failure is equivalent to det A = 0; with no_pivot it also fails on invertible matrices (refuted). LAPACK variant: C90."
  },
  {
   "property": "C52",
   "status": "proved",
   "theorems": [
    "Verif.Mat.C52_determinant",
    "Verif.Mat.C52_free_determinant"
   ],
   "note": "Exact arithmetic; also for the free function on singular matrices."
  },
  {
   "property": "C53",
   "status": "partial",
   "theorems": [
    "Verif.Mat.C53_invert_partial",
    "Verif.Mat.C53_free_invert",
    "Verif.Mat.C53_no_pivot_refuted"
   ],
   "note": "Exact arithmetic. With pivoting proved; with no_pivot=true the result is wrong (refuted)."
  },
  {
   "property": "C54",
   "status": "proved",
   "theorems": [
    "Verif.Mat.C54_decompose",
    "Verif.Mat.C54_solve",
    "Verif.Mat.C54_invert",
    "Verif.Mat.C54_lower_inverse",
    "Verif.Mat.C54_lower_determinant",
    "Verif.Mat.C54_succeeds_iff"
   ],
   "note": "Exact arithmetic with a positive square root, NO_LAPACK code; moreover success is equivalent to positive definiteness. The class only offers the determinant of the factor, whose square is det A."
  },
  {
   "property": "C55",
   "status": "proved",
   "theorems": [
    "Verif.Linfit.C55_linfit_minimises",
    "Verif.Linfit.C55_linfit_succeeds_iff",
    "Verif.Linfit.C55_linfit_errors"
   ],
   "note": "Exact arithmetic, NO_LAPACK code, non zero errors; moreover the minimum is unique, success is equivalent to independence of the templates, and the errors are those of the covariance."
  },
  {
   "property": "C56",
   "status": "partial",
   "theorems": [
    "Verif.Qx.C56_brute",
    "Verif.Qx.C56_threads_partial",
    "Verif.Qx.C56_threads_agree",
    "Verif.Qx.C56_reverse_ties_refuted",
    "Verif.Qx.C56_few_refuted"
   ],
   "note": "The neighbours and distances of the first catalogue are right for every catalogue and nth, ties included, and identical across thread counts as long as each thread has a source; reverse distances too. With more threads than sources the program stops (refuted). The index of a reverse match among ties depends on the number of threads (refuted). The distance proxy is an arbitrary function; rounding of float(n1/threads) enters as the hypothesis assigned*(threads-1) < n1."
  },
  {
   "property": "C57",
   "status": "partial",
   "theorems": [
    "Verif.Qx.C57_bucket_partial",
    "Verif.Qx.C57_far_diagonal_refuted",
    "Verif.Qx.C57_duplicate_refuted",
    "Verif.Qx.C57_no_extent_refuted",
    "Verif.Qx.C57_self_reverse_refuted",
    "Verif.Qx.C57_threads_partial",
    "Verif.Qx.C57_few_refuted"
   ],
   "note": "Linear coordinates, exact arithmetic. Holds for the first neighbour (both ways, every nth) whenever its distance does not exceed the longer side of the field and the second catalogue has extent in both directions; everything reported is a true source with its true distance. With threads the result is the same when each catalogue has at least as many sources as there are threads, otherwise the program stops (refuted). Refuted for far diagonals, for nth >= 2 (duplicates), for catalogues without extent (undefined behaviour), and for reverse matches of self-matches. Missing: spherical mode."
  },
  {
   "property": "C58",
   "status": "partial",
   "theorems": [
    "Verif.Qx.C58_clean_best",
    "Verif.Qx.C58_of_brute",
    "Verif.Qx.C58_unmatched_refuted"
   ],
   "note": "Proved when every source has a match; the call aborts otherwise (refuted)."
  },
  {
   "property": "C59",
   "status": "partial",
   "theorems": [
    "Verif.Rand.C59_randomi_partial",
    "Verif.Rand.C59_randomi_onto",
    "Verif.Rand.C59_negative_refuted",
    "Verif.Rand.C59_overflow_refuted"
   ],
   "note": "Vector form: in the interval for every stream when the upper bound is not negative; with a negative upper bound ma+1 can be returned; the interval width overflows for wide bounds. The scalar form is std::uniform_int_distribution, whose contract is the property. Doubles are exact."
  },
  {
   "property": "C60",
   "status": "partial",
   "theorems": [
    "Verif.Astro.C60_enlarge",
    "Verif.Astro.C60_roundtrip",
    "Verif.Astro.C60_shrink_empty",
    "Verif.Astro.C60_shrink",
    "Verif.Astro.C60_shrink_overflow_refuted"
   ],
   "note": "Round trip proved; shrink with margins whose sum overflows reads outside the image (refuted)."
  },
  {
   "property": "C61",
   "status": "proved",
   "theorems": [
    "Verif.Astro.C61_flip_x",
    "Verif.Astro.C61_flip_y",
    "Verif.Astro.C61_involution",
    "Verif.Astro.C61_commute"
   ],
   "note": ""
  },
  {
   "property": "C62",
   "status": "proved",
   "theorems": [
    "Verif.Astro.C62_shift",
    "Verif.Astro.C62_compose",
    "Verif.Astro.C62_empty_ub"
   ],
   "note": "Every non-empty image; an image with a zero dimension is undefined behaviour (C62_empty_ub)."
  },
  {
   "property": "C63",
   "status": "partial",
   "theorems": [
    "Verif.Astro.C63_translate_partial",
    "Verif.Astro.C63_translate_refuted"
   ],
   "note": "Proved for shifts smaller than the image; larger shifts leave the image unchanged (refuted)."
  },
  {
   "property": "C64",
   "status": "partial",
   "theorems": [
    "Verif.Astro.C64_indices",
    "Verif.Astro.C64_bounds",
    "Verif.Astro.C64_size",
    "Verif.Astro.C64_image_partial",
    "Verif.Astro.C64_image_refuted",
    "Verif.Astro.C64_overflow_refuted"
   ],
   "note": "Index form proved; the image form fails for doubly inverted regions and the size overflows for huge ones (refuted)."
  },
  {
   "property": "C65",
   "status": "partial",
   "theorems": [
    "Verif.Astro.C65_segment",
    "Verif.Astro.C65_first",
    "Verif.Astro.C65_area_partial",
    "Verif.Astro.C65_area_refuted"
   ],
   "note": "Labels, ids, origins and termination proved for every map; the areas count pixels reached from several neighbours several times (refuted), only the bound below holds."
  },
  {
   "property": "C66",
   "status": "proved",
   "theorems": [
    "Verif.Astro.C66_inflate"
   ],
   "note": ""
  },
  {
   "property": "C67",
   "status": "partial",
   "theorems": [
    "Verif.Astro.C67_convolve_partial",
    "Verif.Astro.C67_even",
    "Verif.Astro.C67_identity",
    "Verif.Astro.C67_linear",
    "Verif.Astro.C67_convolve_refuted"
   ],
   "note": "Exact arithmetic. Proved when the half-size of the kernel does not exceed the map; larger kernels read outside the map (refuted)."
  },
  {
   "property": "C68",
   "status": "partial",
   "theorems": [
    "Verif.Astro.C68_boxcar_partial",
    "Verif.Astro.C68_boxcar_refuted"
   ],
   "note": "Proved for half-sizes up to the image size; larger ones read outside the image (refuted)."
  },
  {
   "property": "C69",
   "status": "partial",
   "theorems": [
    "Verif.Math.C69_edges",
    "Verif.Math.C69_outside",
    "Verif.Math.C69_open_partial",
    "Verif.Math.C69_open_single_refuted",
    "Verif.Math.C69_vector",
    "Verif.Math.C69_bad_bin",
    "Verif.Math.C69_centers",
    "Verif.Math.C69_make_bins",
    "Verif.Math.C69_center_roundtrip"
   ],
   "note": "in_bin_open with a single bin refuses values above the bin (refuted); everything else proved."
  },
  {
   "property": "C70",
   "status": "partial",
   "theorems": [
    "Verif.Rand.C70_shuffle",
    "Verif.Rand.C70_shuffle_onto",
    "Verif.Rand.C70_coin_partial",
    "Verif.Rand.C70_coins",
    "Verif.Rand.C70_zero_refuted"
   ],
   "note": "shuffle is a permutation for every stream and reaches all of them; random_coin(0) is true when exactly 0 is drawn (refuted)."
  },
  {
   "property": "C71",
   "status": "partial",
   "theorems": [
    "Verif.Io.C71_names",
    "Verif.Io.C71_bake",
    "Verif.Io.C71_expand",
    "Verif.Io.C71_expand_refuted",
    "Verif.Io.C71_literal",
    "Verif.Io.C71_mismatch"
   ],
   "note": "A 2-D argument with zero columns, or a bracket inside a string literal, is undefined behaviour (refuted)."
  },
  {
   "property": "C72",
   "status": "partial",
   "theorems": [
    "Verif.Core.C72_rect",
    "Verif.Core.C72_ragged_partial",
    "Verif.Core.C72_ragged_refuted",
    "Verif.Core.C72_view"
   ],
   "note": "A ragged nested list whose first list is empty is accepted and loses the elements (refuted)."
  },
  {
   "property": "C73",
   "status": "partial",
   "theorems": [
    "Verif.Thread.Pool.C73_join_partial",
    "Verif.Thread.Pool.C73_join_loses_items"
   ],
   "note": "The full statement is refuted for the code: join can drop queued items."
  },
  {
   "property": "C74",
   "status": "partial",
   "theorems": [
    "Verif.Core.View.C74_view_scalar",
    "Verif.Core.View.C74_vec_scalar_partial",
    "Verif.Core.View.C74_vec_scalar_refuted"
   ],
   "note": "Holds for views and for scalars outside the vector; refuted for vectors (scalar taken by reference)."
  },
  {
   "property": "C75",
   "status": "proved",
   "theorems": [
    "Verif.Str.C75_split_any_of",
    "Verif.Str.C75_content",
    "Verif.Str.C75_join"
   ],
   "note": ""
  },
  {
   "property": "C76",
   "status": "proved",
   "theorems": [
    "Verif.Str.C76_forward",
    "Verif.Str.C76_backward"
   ],
   "note": ""
  },
  {
   "property": "C77",
   "status": "proved",
   "theorems": [
    "Verif.Str.C77_replace_block",
    "Verif.Str.C77_identity",
    "Verif.Str.C77_empty_markers"
   ],
   "note": "Two empty markers make it run for ever (C77_empty_markers)."
  },
  {
   "property": "C78",
   "status": "partial",
   "theorems": [
    "Verif.Str.C78_extract_partial",
    "Verif.Str.C78_empty_match_refuted",
    "Verif.Str.C78_nmatch"
   ],
   "note": "For engines without empty matches; an empty match never returns (refuted)."
  },
  {
   "property": "C79",
   "status": "proved",
   "theorems": [
    "Verif.Io.C79_mkdir"
   ],
   "note": ""
  },
  {
   "property": "C80",
   "status": "partial",
   "theorems": [
    "Verif.Io.C80_open_partial",
    "Verif.Io.C80_close_refuted",
    "Verif.Io.C80_list_files",
    "Verif.Io.C80_list_directories"
   ],
   "note": "Calling close() makes the destructor close the handle a second time (refuted); the rest is proved."
  },
  {
   "property": "C81",
   "status": "partial",
   "theorems": [
    "Verif.Io.C81_read",
    "Verif.Io.C81_read_single_partial",
    "Verif.Io.C81_unique"
   ],
   "note": "Single-delimiter formats: only when no data line starts with the delimiter (see C45_single_refuted)."
  },
  {
   "property": "C82",
   "status": "partial",
   "theorems": [
    "Verif.Io.C82_roundtrip",
    "Verif.Io.C82_csv_partial",
    "Verif.Io.C82_csv_refuted"
   ],
   "note": "CSV tables with an empty first cell are not read back (refuted)."
  },
  {
   "property": "C83",
   "status": "partial",
   "theorems": [
    "Verif.Io.C83_partial",
    "Verif.Io.C83_refuted"
   ],
   "note": "An empty first column makes write_table read out of bounds (refuted)."
  },
  {
   "property": "C84",
   "status": "proved",
   "theorems": [
    "Verif.Io.C84_aligned"
   ],
   "note": ""
  },
  {
   "property": "C85",
   "status": "partial",
   "theorems": [
    "Verif.Io.C85_roundtrip",
    "Verif.Io.C85_empty_refuted"
   ],
   "note": "A vector holding one empty string is read back as an empty vector (refuted)."
  },
  {
   "property": "C86",
   "status": "proved",
   "theorems": [
    "Verif.Index.C86_stride",
    "Verif.Index.C86_bad"
   ],
   "note": ""
  },
  {
   "property": "C87",
   "status": "partial",
   "theorems": [
    "Verif.Astro.C87_recenter_partial",
    "Verif.Astro.C87_recenter_refuted",
    "Verif.Astro.C87_recenter_size"
   ],
   "note": "Same-size form fails when the displacement reaches the image size (refuted)."
  },
  {
   "property": "C88",
   "status": "proved",
   "theorems": [
    "Verif.Astro.C88_generate"
   ],
   "note": ""
  },
  {
   "property": "C89",
   "status": "partial",
   "theorems": [
    "Verif.Astro.C89_erase",
    "Verif.Astro.C89_kept_partial",
    "Verif.Astro.C89_refuted",
    "Verif.Astro.C89_area_refuted"
   ],
   "note": "C89_erase describes the code for every input: the origin of a segment is counted twice, so segments one pixel too small are kept, and nothing is erased if no reported area is small (refuted). Segments large enough are always kept."
  },
  {
   "property": "C90",
   "status": "partial",
   "theorems": [
    "Verif.Mat.C90_solve_transpose",
    "Verif.Mat.C90_solve_symmetric_partial",
    "Verif.Mat.C90_solve_refuted",
    "Verif.Mat.C90_invert",
    "Verif.Mat.C90_invert_symmetric_partial",
    "Verif.Mat.C90_invert_symmetric_refuted"
   ],
   "note": "LAPACK by contract. invert proved; solve solves the transposed system (refuted for asymmetric matrices); invert_symmetric only fills one triangle (refuted), right after inplace_symmetrize."
  },
  {
   "property": "C91",
   "status": "proved",
   "theorems": [
    "Verif.Linfit.C91_batch_fit"
   ],
   "note": "Exact arithmetic, NO_LAPACK code."
  },
  {
   "property": "C92",
   "status": "partial",
   "theorems": [
    "Verif.Linfit.C92_linfit_nn_partial",
    "Verif.Linfit.C92_never_successful",
    "Verif.Linfit.C92_nan_refuted",
    "Verif.Linfit.C92_negative_refuted"
   ],
   "note": "Non-negativity and decrease of chi2 proved when products of templates are not negative; success is never reported, NaN is returned when zero is the solution, and negative parameters appear for anticorrelated templates (refuted). Optimality (convergence) not proved."
  },
  {
   "property": "C93",
   "status": "partial",
   "theorems": [
    "Verif.Hull.C93_distance_partial",
    "Verif.Hull.C93_built",
    "Verif.Hull.C93_point_refuted",
    "Verif.Hull.C93_vector",
    "Verif.Hull.C93_vector_refused"
   ],
   "note": "Hulls with at least one edge and none of zero length, which holds for built hulls of points not on a line; coincident points give an infinite positive distance. Exact real arithmetic. The vector form is proved to give the distance of each point, and to stop on vectors of different sizes."
  },
  {
   "property": "C94",
   "status": "partial",
   "theorems": [
    "Verif.Hull.C94_ccw_partial",
    "Verif.Hull.C94_cw",
    "Verif.Hull.C94_reverse",
    "Verif.Hull.C94_collinear_refuted",
    "Verif.Hull.C94_integer_refuted",
    "Verif.Hull.C94_open"
   ],
   "note": "Right for clockwise polygons and for counter-clockwise ones whose first three vertices are not on a line; otherwise the orientation is taken wrong. With integer coordinates no hull counts as closed."
  },
  {
   "property": "C95",
   "status": "partial",
   "theorems": [
    "Verif.Bil.C95_cell",
    "Verif.Bil.C95_node",
    "Verif.Bil.C95_exact",
    "Verif.Bil.C95_between",
    "Verif.Bil.C95_continuous",
    "Verif.Bil.C95_strict",
    "Verif.Bil.C95_strict_edge_refuted",
    "Verif.Bil.C95_line_refuted",
    "Verif.Bil.C95_axes_node",
    "Verif.Bil.C95_axes_exact",
    "Verif.Bil.C95_vector",
    "Verif.Bil.C95_rebin",
    "Verif.Bil.C95_rebin_same",
    "Verif.Bil.C95_refused"
   ],
   "note": "All parts hold for images with at least two rows and columns and positions that can be converted to an integer, in exact arithmetic. Refuted: bilinear_strict returns the default on the last row and column of pixels; an image with a single row is read out of bounds. Truncation for integer images is not modelled."
  },
  {
   "property": "C96",
   "status": "partial",
   "theorems": [
    "Verif.Bil.C96_node",
    "Verif.Bil.C96_exact",
    "Verif.Bil.C96_default",
    "Verif.Bil.C96_continuous",
    "Verif.Bil.C96_smooth_refuted",
    "Verif.Bil.C96_line_refuted"
   ],
   "note": "Pixel values, exactness, continuity and the default region hold for images with at least two rows and columns. Not smooth: neighbouring cells use different splines, with different slopes where they meet. An image of a single row is read out of bounds."
  },
  {
   "property": "C97",
   "status": "proved",
   "theorems": [
    "Verif.Coord.C97_defined",
    "Verif.Coord.C97_great_circle",
    "Verif.Coord.C97_radian",
    "Verif.Coord.C97_symm",
    "Verif.Coord.C97_triangle",
    "Verif.Coord.C97_range",
    "Verif.Coord.C97_zero",
    "Verif.Coord.C97_meridian",
    "Verif.Coord.C97_equator",
    "Verif.Coord.C97_vector",
    "Verif.Coord.C97_to"
   ],
   "note": "Over the real numbers; rounding is not modelled."
  },
  {
   "property": "C98",
   "status": "partial",
   "theorems": [
    "Verif.Coord.C98_less_partial",
    "Verif.Coord.C98_vector_partial",
    "Verif.Coord.C98_large_refuted",
    "Verif.Coord.C98_negative_refuted"
   ],
   "note": "Holds for radii from 0 to 180 degrees. Refuted above and for negative radii: the code compares squared sines."
  },
  {
   "property": "C99",
   "status": "partial",
   "theorems": [
    "Verif.Coord.C99_normalize_partial",
    "Verif.Coord.C99_same",
    "Verif.Coord.C99_range_refuted",
    "Verif.Coord.C99_stuck_refuted"
   ],
   "note": "Termination and direction hold for all real inputs, the range of Dec for -270..450. Refuted: Dec = -300 becomes 120; with rounding a huge RA is never reduced and the loop does not end."
  }
 ]
}