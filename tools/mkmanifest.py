#!/usr/bin/env python3
"""Writes MANIFEST.json from the table below."""
import json, os
C = []
def claim(pid, status, ths, note, ns=""):
    for c in C:
        if c["property"] == pid:
            assert c["status"] == status
            c["theorems"] += [(ns + "." + t if ns and not t.startswith("Verif.") else t) for t in ths.split()]
            c["note"] = (c["note"] + " " + note).strip()
            return
    C.append({"property": pid, "status": status, "theorems": [(ns + "." + t if ns and not t.startswith("Verif.") else t) for t in ths.split()], "note": note})

S = "Verif.Serializer"
claim("C01", "proved", "serializeBEInt16_spec serializeBEInt24_spec serializeBEInt32_spec serializeBEInt64_spec serializeLEInt16_spec serializeLEUInt16_spec serializeLEInt24_spec serializeLEInt32_spec serializeLEInt64_spec serializeLEDouble_spec serializeLEFloat_spec deserializeBE16_spec deserializeLE16_spec deserializeBE32_spec deserializeLE32_spec deserializeBE64_spec deserializeLE64_spec deserializeLEDouble_spec roundtrip_BE16 roundtrip_BE32 roundtrip_BE64 roundtrip_LE16 roundtrip_LEU16 roundtrip_LE32 roundtrip_LE64 roundtrip_LEDouble serializeBEInt32_outside", "24-bit values have no matching read function in the code; their layout is proved.", S)
B = "Verif.Base64"
claim("C02", "partial", "decode_encode_partial decode_encode_actual decode_encode_violated encode_injective decode_safe decode_reads_outside", "The code violates the property: padded text decodes with one surplus zero byte. Proved: exact result of decode after encode, identity when no padding is needed, the violation.", B)
claim("C03", "proved", "encode_rfc4648 encode_length encode_shape", "", B)
claim("C04", "proved", "crc8_bitwise crc8_append", "", "Verif.CRC")
claim("C53", "proved", "crc8_detects_bit_burst crc8_detects_burst crc8_detects_bit crc8_misses_high_first", "For the bits of each byte taken from the lowest to the highest, the order of this reflected CRC; in the opposite order bursts of 11 bits are missed (crc8_misses_high_first).", "Verif.CRC")
M = "Verif.Math"
claim("C35", "proved", "divFloor_modFloor divFloor_eq_fdiv floor_by_zero", "", M)
claim("C36", "partial", "powerOf2_iff ceilPowerOf2_partial ceilPowerOf2_outside", "ceilPowerOf2 is wrong for 0 and above 2^31 (proved).", M)
claim("C54", "partial", "swap_partial swap_self_zeroes", "Swapping an object with itself zeroes it (proved violation).", M)
claim("C55", "partial", "tolerance_fp_partial isEqual_symm isEqual_refl isEqual_refl_special isNotEqual_not isGreater_swap isLessEqual_not_greater nan_comparisons tolerance_overlap large_less_itself", "IEEE doubles (Verif/Fp). Exactly one of the three holds for differences of at least 1e-6 and, below 2^29, of at most 9e-7; in between two may hold, and every number from 2^34 on is less than itself (both proved).", "Verif.Math.Fl")
claim("C55", "partial", "tolerance_trichotomy_partial isEqual_not_transitive", "In exact arithmetic exactly one holds always.", M)
claim("C56", "partial", "round_fp_partial round_half_below round_odd round_ub sign_fp interpolate_fp_partial interpolate_end probability_bounds", "IEEE doubles (Verif/Fp). round is right for every double of int64 range except 0.49999999999999994 and the odd integers between 2^52 and 2^53; interpolation is monotone and starts at its begin value, the end value is not exact.", "Verif.Math.Fl")
claim("C56", "partial", "round_partial interpolate_partial random_in_range random_defined random_overflow", "The same functions in exact arithmetic.", M)
H = "Verif.Hashtable.Props"
claim("C05", "proved", "table_is_map spec_determined containsKey_null_value", "For any fixed hash function of the keys; see C07 for String keys.", H)
claim("C06", "proved", "table_is_map iteration_exact hasNext_exact load_bounded", "", H)
claim("C09", "partial", "edits_partial constructed deleteRange_past_end deleteRange_negative_length insert_into_itself", "The code violates the claim for range deletions past the end, negative lengths and insertion of a string into itself; what it does then is proved for all strings (EditMore): range deletion is right exactly inside of the string (deleteRange_right_iff), insertion into itself exactly at the front or for strings that repeat their first i characters (insertSelf_right_iff).", "Verif.Str.EditProps")
claim("C07", "partial", "equal_strings_equal_hash_partial neverHashed_clean string_keys_partial hashCode_twice hash_after_assign hash_after_toLowerCase table_lookup_fails", "The code violates the claim: assignment, toLowerCase and toUpperCase keep the cached hash, so equal strings can have different hash codes (proved). Proved for strings whose cache is not stale.", "Verif.Str.HashProps")
claim("C08", "proved", "equals_iff equalsIgnoreCase_iff compareTo_spec compareTo_total_order less_iff", "", "Verif.Str.CmpProps")
claim("C10", "proved", "substring_spec substringFrom_spec trim_spec isTrim_unique trim_idempotent reverse_spec reverse_reverse toLowerCase_spec toUpperCase_spec replaceChar_spec lower_upper_char count_spec", "", "Verif.Str.PartProps")
claim("C11", "partial", "indexOfChar_spec lastIndexOfChar_spec lastIndexOfCharFrom_spec lastIndexOfStrFrom_spec lastIndexOfStr_spec indexOfStr_partial constructed_terminated indexOf_stale_match indexOf_reads_outside startsWith_spec atIs_spec endsWith_spec", "indexOf(string) compares with characters behind the end (stale matches and reads outside the buffer are proved); correct for freshly constructed strings.", "Verif.Str.SearchProps")
C[-1]["theorems"] += ["Verif.Str.SafeProps.indexOfStr_noOverhang_partial", "Verif.Str.SafeProps.noOverhang_single", "Verif.Str.SafeProps.noOverhang_pair"]
claim("C12", "partial", "replaceStr_partial replace_empty_diverges", "An empty search string diverges (proved).", "Verif.Str.SearchProps")
C[-1]["theorems"] += ["Verif.Str.SafeProps.replaceStr_noOverhang_partial"]
claim("C13", "partial", "valueOf_partial valueOfU_spec toInt_numeral toInt_valueOf_partial valueOf_injective valueOf_min_overflows toInt_bad_char toInt_quirks toBool_valueOfBool", "Fails for the most negative value only (signed overflow, proved).", "Verif.Num.Props")
claim("C17", "partial", "encode_standard encode_total roundtrip_partial decode_standard encode_injective leading_feff_lost nul_truncates supplementary_nonstandard supplementary_misread truncated_reads_outside inner_bom_reads_outside", "A leading U+FEFF and NUL do not survive; characters above U+FFFF are not written as the standard demands; malformed input is read past its end (all proved).", "Verif.Charset.Utf8Props")
claim("C18", "partial", "encode_be be_roundtrip_partial be_own_output_reads_outside be_truncated le_decode_partial le_roundtrip_empty bom_ignored be_mark_partial be_mark_truncated le_mark_partial utf8_mark_throws", "The code violates the property in several ways (proved); positive part for characters with nonzero low byte.", "Verif.Charset.Utf16Props")
claim("C19", "proved", "win1252_roundtrip win1252_text_roundtrip win1252_standard_partial win1252_circumflex win1252_collisions raw_roundtrip raw_sign_extends", "Agreement with the standard table fails for 0x88 only (proved).", "Verif.Charset.PageProps")
claim("C20", "partial", "mac_roundtrip_partial mac_violations mac_decode_standard_partial mac_encode_standard", "Fails for the bytes 7F, 92, 93, B0 (proved).", "Verif.Charset.PageProps")
I = "Verif.Num.IntegerProps"
claim("C32", "partial", "toHexString_spec fromHex_spec hex_roundtrip_partial hex_negative digitCount_spec", "Negative numbers become the empty text (proved).", I)
claim("C33", "proved", "toRomanString_spec roman_value roman_injective roman_nonpositive", "", I)
claim("C34", "partial", "latin_value_partial latin_injective_partial latin_correct_partial latinValue_unique latin_26_multiples latin_26 latin_collision", "Multiples of 26 yield non-letters, numbers beyond 26*2^31 collide (proved).", I)
claim("C41", "partial", "urlDecode_tokens url_roundtrip_partial urlEncode_injective url_umlaut url_replaced url_bad_percent", "Holds for ASCII; non-ASCII text is damaged or read out of bounds (proved).", "Verif.Url.Props")

claim("C14", "proved", "tokenizer_words tokenizer_delims delims_unique split_spec", "", "Verif.Lists.TokenizerProps")
claim("C15", "partial", "sort_sorts byteArray_sort sorted_unique sort_permutes nan_blocks_sorting", "FloatArray holding NaN is not sorted (proved); every container whose comparison is a total preorder is. StringList::sort is covered by Verif.Lists.StringListProps.list_history_partial.", "Verif.Sort.Props")
claim("C50", "partial", "arg_spec_partial argInt_spec arg_no_percent arg_no_placeholder arg_percent_sign arg_leading_zero arg_chain", "Placeholders written with a leading zero are excluded (arg_leading_zero). If there is a percent sign but no placeholder, the value is put in front of the text (arg_no_placeholder); text inserted by one call is replaced by the next (arg_chain).", "Verif.Str.ArgProps")
claim("C52", "partial", "list_history_partial list_history_sized_partial append_own_element append_own_reads_freed remove_own_first split_join split_parts_free", "Arguments that are references into the list itself break it: append(list[i]) reads freed memory when the block is full, remove(list[0]) empties the list (both proved).", "Verif.Lists.StringListProps")
claim("C57", "partial", "compareFancy_spec compareFancy_preorder compareFancy_confuses", "A total preorder; digit runs are compared modulo 2^32 and a digit run equals the letter with that code (proved).", "Verif.Str.ArgProps")

claim("C16", "partial", "history take_from_empty copy_double_free", "Any history that never takes from an empty stack; pop/top on an empty stack is undefined behaviour and copying a stack double-frees (both proved).", "Verif.Stack.Props")
A = "Verif.Arrays.Props"
claim("C49", "partial", "bytearray_history_partial bytearray_progress resize_grow resize_stale terminator terminator_lost get_unchecked replaceRange_partial replaceRange_ignores_offset copy_of_null", "Growing a shrunk array brings back old bytes, the terminating NUL is lost by resize, get is unchecked, the replace offset is ignored (all proved).", A)
claim("C58", "proved", "array_get_set array_copy", "", A)
D = "Verif.Date.Props"
claim("C29", "proved", "construct_components components_injective reconstruct time_of_day", "For time stamps whose year fits the uint16 the API returns.", D)
claim("C30", "proved", "calendar epoch same_day", "", D)
claim("C31", "partial", "weekday_partial weekday_epoch weekday_cycle weekday_before_1970 weekday_witness", "Negative weekdays before 1970 (proved).", D)
claim("C59", "proved", "toString_iso toString_injective compareTo_order empty_date_overflows", "", D)
U = "Verif.Undo.Props"
claim("C21", "proved", "undo_restores undo_restores_all", "Member memory is a map from addresses to cells; a registration saves a range of cells.", U)
claim("C22", "partial", "history undo_redo_inverse undo_redo_available change_discards_redo undo_in_transaction", "history holds for all sequences in which undo/redo are not called inside a transaction; the code does not prevent that call and then a rollback writes stale values (undo_in_transaction).", U)
claim("C23", "partial", "rollback_restores commit_keeps inner_rollback_ignored commit_inactive_loses", "An explicit rollback on an inner level only lowers the level (inner_rollback_ignored); committing while recording is off drops the changes (commit_inactive_loses).", U)
claim("C24", "proved", "close_transaction lastFailure_ok nan_does_not_fail", "setMember(double) with NaN does not register a failing status (nan_does_not_fail).", U)
claim("C48", "proved", "setMember_spec setMemberRange_spec setMemberDouble_spec", "", U)
claim("C60", "proved", "undo_notifies redo_notifies step_owners close_notifies", "", U)
claim("C25","partial","history_partial no_leak reads_pure swapped_once swap_swaps swap_ignored","swapData does nothing without an undo manager (swap_ignored); everything else holds for all histories","Verif.LinkedList.Props")
claim("C26","proved","undo_history undo_redo","undo/redo not inside a transaction, sizes below 2^32; that the elements stay alive while the undo manager is in use is C128","Verif.LinkedList.Props")
claim("C37","proved","distance_minimal distance_zero distance_symmetric","equals is assumed symmetric; lengths below 2^31","Verif.Diff.Props")
claim("C38","partial","script_valid_partial objects objects_one_sided reportOp_right deleted_object_wrong modified_exchanged added_object_wrong","the operations form a minimal script; the objects named are wrong for deletions above, insertions below and replacements below the main diagonal","Verif.Diff.Props")
claim("C27","proved","refcount_safe last_release_destroys mutual_exclusion","any number of threads and objects, every interleaving; clients use only objects they own a reference to, with fewer than 2^31-1 references to one object; objects whose pool is null are not modelled","Verif.RefCount")
claim("C28","proved","drain_releases_all pool_never_over_releases drain_keeps_retained Pool.pool_entries Pool.spec_all","every interleaving; Pool.pool_entries is about the linked entries","Verif.RefCount")
claim("C42","partial","stream_is_tape_partial write_overflows not_staysInside seek_negative seek_end_ignored","writes beyond the end of the buffer and seeking before its start are undefined behaviour","Verif.MemStream")
claim("C61","partial","no_deadlock_partial drain_self_lock","some thread can always go on except when a destructor run by drain uses the pool: that call never returns (proved)","Verif.RefCount")
claim("C62","partial","highBit_sequential highBit_race","without a concurrent call the count is kept; setHighBit takes no lock, so a concurrent retain can be lost (proved)","Verif.RefCount")
claim("C45","partial","codes_canonical codes_prefix_free tree_decodes_partial incomplete_code_lost empty_code_ub","canonical codes for all code lengths within Kraft's inequality; decoding for complete codes and for a single one-bit code; in incomplete codes words are lost, an empty code is undefined behaviour (both proved)","Verif.Inflate")
claim("C46","partial","inflate_wraps inflate_decodes_partial inflate_zlib_partial header_rejects checksum_ignored far_copy_wrong no_distances_ub crossing_repeat_throws default_constructor_ub invalid_not_detected","all valid streams except: far copies in fixed blocks (wrong data), blocks without distance codes (UB), repetitions across the alphabets (thrown)","Verif.Inflate")
claim("C39","partial","read_back_partial read_back_exact parse_document_partial text_in_one_piece attrs_value file_read_back written_nulFree apostrophe_lost numeric_reference_dropped declaration_unbalanced trailing_text_dropped bad_input white_space_split attrs_copy_ub",
 "False as stated: the writer escapes ' as &apos;, which the parser drops (apostrophe_lost, for every text containing one). Proved: everything else written by any history of calls is reported by the parser, exactly, up to the indentation asked for; also for arbitrary documents of the specified fragment of XML; and through the bytes of a file.","Verif.Xml")
claim("C40","proved","document_nested writer_total text_escaped text_without_markup before_startDocument late_attribute_dropped raw_text_unescaped",
 "for all call histories which close what they open; text passed with xmlencode=false is the caller's responsibility (raw_text_unescaped)","Verif.Xml")
claim("C43","partial","normalize_spec normalize_normal parent_name_spec name_last_component fileIn_partial fileOf_partial recompose_partial extension_partial fileIn_trailing recompose_relative recompose_root parent_of_root_child extension_no_dot extension_dir_dot","normalisation holds for all strings; File(parent(), name()) is the same path except for plain names and the root (violations proved); File(dir, child) for every child with a component (with a child of separators only the path gets a trailing separator, proved)","Verif.Path")
claim("C63","proved","compareTo_before compareTo_order","isDirectory is an arbitrary function of the path that does not change during the comparison","Verif.Path")
claim("C64","partial","readFully_spec readFully_schedule readFully_overrun","for buffers with room for the requested number of bytes; a smaller buffer is overrun (proved); stated as partial because the API does not check it","Verif.Path")
claim("C65","partial","lastModified_partial lastModified_wrong lastModified_example lastModified_not_monotone","right only when the nanoseconds are below 1000; wrong for every other fraction (proved)","Verif.Path")
claim("C44","partial","save_load_partial pairs_survive_partial backslash_n_grows file_loses reload_reads_behind","proved for keys and values without the characters the format cannot represent (line breaks, the pair backslash-n, outer white space, = in keys); counterexamples proved for the others","Verif.Prefs.Props")
claim("C66","partial","history_partial destructor_frees_all int_roundtrip_partial bool_roundtrip double_roundtrip_partial typed_default double_default double_of_text int_default_on_text line_break_not_restored setValue_cr_reads_behind setInt_min","values with line breaks come back changed, a value ending with CR may be read behind its end, the smallest integer overflows (proved); doubles keep ten digits (double_roundtrip_partial), and valueDouble yields 0 instead of the default for text that is no number (double_of_text)","Verif.Prefs.Props")
claim("C47","partial","reads_archive_partial entry_finds_partial leading_end_record_missed short_file_rounds garbage_accepted binary_extra_ub short_directory_ub stored_overflow_ub unknown_method_ub short_entry_leaks crc_not_checked","reads_archive_partial: every archive in the sense of Zip/Spec.lean (records of the format at any places, stored and deflated members, archive comment) opens with the right names, sizes and contents; entry_finds_partial: entry(name) is the first member of that name. Missing because false: binary extra fields, an end record at the beginning with a comment, the deflate streams of inflate_decodes_partial; damaged archives are not rejected but accepted or read out of bounds","Verif.Zip")
claim("C67","proved","crc32_remainder crc32_collides_iff crc32_detects_burst","the CRC as a remainder of polynomials over ZMod 2","Verif.Zip")
claim("C68","partial","session_writes_archive session_roundtrip overwrite_keeps_tail overwrite_reads_old_directory overwrite_example many_entries_lost","session_writes_archive, session_roundtrip: full claim for new files, empty files and files that are not longer than the archive, below 65536 entries and 4 GiB; overwrite_reads_old_directory, many_entries_lost: violations otherwise","Verif.Zip")
claim("C51","partial","extents_smallest_box extents_order far_point_lost flat_extents_spoil_z union_contains_partial intersect_exact_partial intersection_exact_partial intersection_disjoint intersects_symm intersects_iff normalize_partial set_edges_partial onGrid_int union_loses_point intersect_exceeds intersection_exceeds setLeft_inexact","In IEEE double arithmetic. Extents: proved for all histories with coordinates within +-1E90 and x below 1E89 (violations outside are proved). Rect: exact on every common binary grid (integers up to 2^49 included); because edges are stored as origin plus size, rounding violates the claim for other doubles (witnesses proved); disjoint rectangles 'intersect' in the point (0,0).","Verif.Geo")
claim("C55","partial","isGreaterEqual_fp_partial isNaN_iff","The remaining comparisons for doubles.","Verif.Math.Fl")
claim("C56","partial","interpolateRange_fp_partial","Interpolation between two positions for doubles.","Verif.Math.Fl")
claim("C69","partial","constructors setters eq_iff add_sub toRgb_grey toRgb_cmyk toRgb_idem isWhite_iff grey_cmyk_rgb toCmyk_idem rgb_to_cmyk_partial black_to_cmyk rgb_cmyk_rgb_differs toGreyScale_white toGreyScale_cases toGreyScale_idem","RGB black cannot be converted to CMYK (0/0, undefined behaviour: black_to_cmyk); toGreyScale turns every colour into white or is undefined behaviour (toGreyScale_white); RGB to CMYK proved for every other colour","Verif.Color")
claim("C70","partial","blend_opaque blend_alpha pdColour_opaque blend_onto_opaque blend_transparent blend_translucent_partial blend_dark blend_whole_alpha blend_overflow blend_invisible blend_nothing blend_cover blend_nothing_darkens blend_transparent_ub blend_grey interpolate_spec","All alphas are covered. Because the alpha is rounded down before the division, bright translucent colours leave the range of a byte: undefined behaviour (blend_overflow for all such pairs, blend_transparent_ub); a transparent foreground can darken a translucent background by one (blend_nothing_darkens); both fully transparent is undefined behaviour (blend_invisible); grey and CMYK colours are blended as if they were RGB (blend_grey)","Verif.Color")
claim("C71","proved","hsvModel_spec fromHsv_spec hsv_round_trip hsv_round_trip_differs fromHsv_outside","single precision IEEE arithmetic (Verif/Fp32); exactHue, exactSat, lossR, lossG, lossB are the specification; one less does occur (hsv_round_trip_differs)","Verif.Color")
claim("C72","partial","new_spec ofVertices_spec ofValue_spec copy_spec set_spec get_alias get_outside zeros_spec diag_spec transpose_spec transpose_transpose insert_spec insertAt_spec insertAt_negative mapLoop_spec smul_spec add_square_partial add_rectangular add_mismatched mul_spec mul_rejects mulVec_spec","operator+ and operator- are right for square matrices only: equal rectangular sizes are rejected (add_rectangular), some unequal sizes accepted or read out of bounds (add_mismatched); indices outside are not rejected (get_alias, get_outside, insertAt_negative)","Verif.Mx.Mat")
claim("C73","partial","mul_matrix transpose_matrix add_matrix_partial smul_matrix mul_assoc_matrix trace_spec trace_square norm1_spec normInf_spec det_spec det_inverse_reject inverse_spec inverse_singular inverse_singular_double det_double_cancels nonZeroElementCount_spec","inverse of a singular matrix reports eOK and holds no numbers (inverse_singular); exact arithmetic, rounding of doubles is only shown by det_double_cancels","Verif.Mx.Mat")
claim("C74","proved","trans_spec trans_rejects trans_identity trans_moving trans_scaling trans_scalingAt trans_mirroring mirroring_reflection mirroring_needs_unit rotation_spec rodrigues_rotation rotationXYZ trans_rotationAt trans_rotationZ4 lastRow_all trans_mul","exact arithmetic with exact sine and cosine","Verif.Mx.Mat")
claim("C75","partial","crossProduct_spec over_spec abs_spec dot_bound normalized_spec angleTo_spec tests_spec tests_depend_on_length biggest_spec biggest_tie rotate_spec eq_spec eq_not_transitive isLinearIndependent_spec","normalized leaves vectors shorter than 1E-6 alone; biggest returns z when x = y even if z is smaller (biggest_tie); == is not transitive; exact arithmetic","Verif.Vtx")
claim("C76","partial","Verif.Vtx.over2_spec normalized_spec rotated_spec angleTo_spec isRightTo_spec tests_spec solveLinearSystem_partial solveLinearSystem_pivot","solveLinearSystem fails for a regular system whose pivot is below 1E-6 (solveLinearSystem_pivot); exact arithmetic","Verif.Vtx.P2")
claim("C77","partial","halfTurn_spec rotationUV_partial rotationUV_short rotationUV_opposite ocs_axes ocs_spec","the rotation between short or almost opposite vectors is none (rotationUV_short, rotationUV_opposite); object coordinates are proved for every unit vector; exact arithmetic","Verif.Vtx")
claim("C78","partial","Eigenvalues.mem eigen_one eigen_two eigen_two_symmetric eigen_three_partial eigen_three_triangular eigen_unsymmetric eigen_rejects","One and two rows: proved in full. Three rows: proved for symmetric and for lower triangular matrices; for other matrices the claim is false (eigen_unsymmetric: eigenvalues 1, 2, 3, answer 2+sqrt 2, 2, 2-sqrt 2). Exact real arithmetic.","Verif.Mx.Mat")
claim("C79","partial","linePlane_partial linePlane_invalid linePlane_small closestPointOnPlane_partial closestPointOnPlane_short closestPointOnLine_partial closestPointSegment_partial segment_distance_nan distancePointToPoint_spec isSamePoint_spec isPointOnLine_partial isPointOnPlane_spec isPointOnPlane_default","Proved for vectors above the tolerance of the library; the claim is false below it (linePlane_small, closestPointOnPlane_short), for points whose foot is outside a segment (segment_distance_nan) and for isPointOnPlane with its default tolerance, which is always false (isPointOnPlane_default). Exact real arithmetic.","Verif.Geom")
claim("C80","partial","closestPointLines_partial usable_unit distanceLineToLine_skew_partial distanceLineToLine_parallel distanceLineToLine_gap distanceLineToLine_almost_parallel intersectionPoint3_partial intersectionPoint3_parallel","Proved if the sine of the angle is at least 1/1000 (unit directions) or 0; false between (distanceLineToLine_gap: NaN; distanceLineToLine_almost_parallel: a wrong distance). Exact real arithmetic.","Verif.Geom")
claim("C81","partial","distancePointToPoint2_spec closestPointOnLine2_partial closestPointOnLine2_short intersectionPoint2_partial intersectionPoint2_parallel crosses_partial crosses_overlap crosses_pivot extensionPointOnLine_partial","Proved for vectors above the tolerance; segments that overlap do not cross (crosses_overlap), and a short segment crosses segments that are far away (crosses_pivot). Exact real arithmetic.","Verif.Geom")
claim("C82","partial","intersectionPointsOfCircles_spec circleParameterBy3Points_spec circleParameterBy3Points_collinear closestPointOnCircle_partial closestPointOnCircle_axis closestPointOnCircle_small angleBisector_partial angleBisector2_partial circleParameterBy2TangentsRadius_partial circleParameterBy2TangentsRadius_parallel","The intersection of two circles and the circle through three points are proved in full; the others above the tolerance of the library, with witnesses below it. Exact real arithmetic.","Verif.Geom")
claim("C83","partial","checkAngle_partial checkAngle_wrong pqCheck_spec extensionPointOnArc_partial extensionPointOnArc_touch extensionPointOnEllipse_partial extensionPointOnEllipse_minor extensionPointOnEllipse_turned checkAngle_endless","checkAngle is wrong for a start below -pi (checkAngle_wrong) and does not end for the double 10^300 (checkAngle_endless); a ray that only just misses an arc is answered with a point near it (extensionPointOnArc_touch), and ellipses are only right if the minor half axis is 1 and centre and main axis are along x (extensionPointOnEllipse_minor, extensionPointOnEllipse_turned). Exact real arithmetic apart from checkAngle_endless.","Verif.Geom")
claim("C84","partial","point_partial basis_unique isBasis point_hull_partial point_affine_partial point_equal_weights_partial point_start_partial point_bezier point_outside end_spec point_end start_spec start_outside knot_spec create_spec point_ub point_close_knots","Proved for t from knot number degree up to, without, knot number n, and knots that are equal or at least 1E-6 apart. False at the parameter end() of every curve: 0/0 (point_end); false for closer knots (point_close_knots); too few knots or weights are read behind the block (point_ub). Exact real arithmetic.","Verif.Nurbs")
claim("C85","partial","format_partial format_exact decompose format_total quoted_text run_before_text iso_pattern long_run september open_quote open_quote_run other_letters weekday_missing shows_exists","Proved for closed apostrophes, runs of up to 255 letters that do not stand directly before an apostrophe, years from 0, days from the end of 1969. False: a run directly before a text in apostrophes is copied (run_before_text, iso_pattern), 256 letters and more are counted modulo 256 (long_run), the long name of September is misspelt (september), weekdays before 1970 are missing (weekday_missing), the other documented letters are copied (other_letters), an open apostrophe turns the text into a run (open_quote, open_quote_run). format_exact says what the code does for every pattern with closed apostrophes.","Verif.DateFmt")
claim("C86","partial","translate_partial translate_exact appendMo_ok line_break other_file short_file table_outside sample_ok","Proved for catalogues with texts up to U+FFFF without NUL (no plural forms) whose translations have no line breaks. False: a line break becomes a backslash and an n (line_break), short or damaged files are read behind their end (short_file, table_outside). translate_exact says what the code does for texts with line breaks too.","Verif.I18n")
claim("C87","proved","transFile_spec transFile_sample fallback_sample","On systems with the slash as separator.","Verif.I18n")
claim("C88","partial","guess_exact guess_marked guess_utf16 guess_ascii guess_default_partial never_default empty_stream single_byte utf8_misread default_sample default_systems","Proved for streams of three and more bytes where char is unsigned. False where char is signed (x86, Apple): no byte is greater than 0x7F, so everything without a mark is ASCII (never_default, utf8_misread). Streams of no byte, or of a part of a mark, are read behind the end (empty_stream). The floating point comparison is proved exact (many1_iff, many2_iff).","Verif.Guess")
claim("C89","partial","forName_spec table_names forName_utf16 guess_known forName_find alternatives_uninitialised","forName is proved for the built in character sets. A character set with alternative names is built with an uninitialised count: alternatives_uninitialised.","Verif.Guess")
claim("C90","proved","number_last text_last fresh is_iff bool_of_number bool_of_two variant_copy variant_make variant_stale","Reading a truth value from a property that holds another number is undefined (bool_of_number). A variant keeps its old text when a number is assigned (variant_stale).","Verif.Property")
claim("C91","partial","valueEquals_iff toF64_bits valueEquals_equivalence setValue_equal same_calls bool_history number_history equals_partial equals_value equals_refl_partial equals_symm_partial unknown_editor new_not_equal equals_asymmetric nan_not_equal checkbox_sample","isValueEquals compares text and all bits: equal truth values with another history differ (bool_history, number_history). operator== is proved for the known editors; false: with another or no editor a property does not equal itself (unknown_editor, new_not_equal), it is not symmetric (equals_asymmetric), NaN differs from itself (nan_not_equal).","Verif.Property")
claim("C92","partial","history exists_iff no_dangling clear_gives_up sample_legal sample_careful sample_result open_transaction_leaks unbacked_dangles undone_add_leaks remove_destroys remove_undo_keeps","Proved for all histories that keep to the rules, except: a manager destroyed in an open transaction leaks its references (open_transaction_leaks), and LinkedList::add does not register the reference of the new element, so an undone addition leaks it (undone_add_leaks). Destructors of objects that release others are not modelled.","Verif.UndoRef")
claim("C93","proved","history undo_step sample_result","The manager stays active (setActive(true)).","Verif.UndoRef")
claim("C94","partial","valueOf_fixed_partial valueOf_short_partial rendered_exact valueOf_whole argDouble_spec_partial no_places sign_lost negative_zero many_places large_numbers half_rounded_up","IEEE doubles; pow(10, n) is taken as exact. False: 0 places show a 0 behind the comma (no_places), between -0.000001 and 0 the minus is lost (sign_lost), -0,00 (negative_zero), from 16 places on wrong digits and undefined behaviour (many_places), undefined behaviour outside the range of int64 (large_numbers).","Verif.DoubleFmt")
claim("C95","partial","valueOf_ten toDouble_nearest toDouble_no_number roundtrip_close ten_returns text_returns literal_returns zero_returns valueOf_plain valueOf_whole convert_nearest convert_fixed_partial convert_returns_partial third_changed no_point_zero special_lost odd_texts","The stream operators of the C++ library are specified in the model (printf %.10g, strtod, failures as in libstdc++, C locale). False: not every double survives (third_changed), whole numbers have no .0 as documented (no_point_zero), infinities and NaN are read back as 0 (special_lost), text with a broken exponent is read as 0 (odd_texts).","Verif.DoubleText")
claim("C96","partial","bytearray_values chararray_values_partial array_values_partial string_values stringlist_values_partial vector_values matrix_values string_copy_independent resize_undefined chararray_copy_null array_copy_unwritten append_element append_element_eighth nurbs_copy_double_free stream_copy hashtable_copy_double_free attributes_copy resource_partial resource_no_leak resource_leak","False: ByteArray::resize frees with the wrong operator (resize_undefined), a CharArray without buffer cannot be copied (chararray_copy_null), Array of numbers is copied with unwritten cells (array_copy_unwritten), list.append(list[i]) reads a freed block when the list is full (append_element, append_element_eighth), copies made by the compiler of Nurbs, MemoryStream and Hashtable are freed twice, SAXAttributes cannot be copied, Resource::operator= leaks the old stream. Elements of StringList and Array are abstract values.","Verif.Own.Props")
claim("C97","proved","mutual_exclusion no_undefined no_data_race stuck_shape","The POSIX implementation (Linux, macOS), sequentially consistent memory; the Windows branches are not modelled. One start and one interrupt per thread object.","Verif.Thread.Props")
claim("C98","partial","interrupt_waits interrupt_ends_partial early_interrupt lost_interrupt lost_wakeup wakeUp_wakes wakeUp_wakes_one alive_late","False: start(); interrupt() before the worker has set its flag leaves the worker running and interrupt waiting for ever (early_interrupt); a worker that calls sleep() after the signal sleeps for ever (lost_interrupt); a wakeUp before the sleep is forgotten (lost_wakeup); isAlive right after start may be false (alive_late). Proved where neither happens.","Verif.Thread.Props")
claim("C99","partial","sleep_deadline sleep_negative sleep_too_long","False from 9223372036855 ms on: the sum wraps around and the thread does not sleep (sleep_too_long). That pthread_cond_timedwait keeps the time is assumed.","Verif.Thread")
claim("C100","partial","log_serial log_progress log_ends whole_lines line_message message_cut last_error_race last_error_quiet","False: a character whose code ends in 00 cuts the line, also the end of the colour (message_cut); lastErrorMessage does not lock and can read freed text (last_error_race). Linux; the date as text and the translations are arguments; Windows-1252 as console charset.","Verif.Log.Props")
claim("C101","partial","session_spec written_read_back crash_prefix session_defined in_turn_defined read_after_write read_overflow size_late","Proved for all histories that are defined (session_spec) and all histories that seek between reading and writing are defined (session_defined). False without this: reading directly after writing is undefined (read_after_write); readFully does not look at the size of the buffer (read_overflow); size() before close may be the old one (size_late). The C library is specified: names, byte lists, buffered writes; a full disk only as a failing close.","Verif.FileIO.Props")
claim("C102","partial","fair_owned fair_no_leak fair_defined two_files remove_spec rename_spec rename_missing open_status create_empty create_destroys copy_dangles close_failed closed_undefined open_leaks create_leaks destroy_leaks open_status_lost","Holds for programs that only copy, assign, destroy and open closed files (fair_*). False otherwise: a copy shares the stream and dangles when the other closes (copy_dangles), opening again or destroying an open file leaks (open_leaks, create_leaks, destroy_leaks), a failed close leaves a dangling pointer (close_failed), calls on a closed file are undefined (closed_undefined). createNewFile empties a file that exists (create_destroys) against its documentation. errno is read after logging (open_status_lost). Directories and links are not modelled.","Verif.FileIO.Handles")
claim("C103","partial","passes_iff execute_counts execute_zero execute_defined check_defined near_passes passes_near same_passes no_argument number_selects word_selects_all negative_passes infinity_fails nan_fails min_message beyond_is_fine odd_arguments","False: testEquals(uint64, int32) accepts 2^64-1 for -1 (negative_passes); infinity does not equal infinity (infinity_fails); the message of a failed comparison with the smallest int64 is undefined (min_message); the number of a test that does not exist gives 0, success (beyond_is_fine); a minus sign selects test 0 (odd_arguments). Exceptions other than jm::Exception are not modelled.","Verif.UnitTest.Props")
claim("C104","partial","read_line read_last read_end read_all utf8_comes_back ascii_comes_back long_line accent_lost accent_changed nul_cuts macron_cuts","Lines up to 255 bytes. False: a longer line makes the stream fail for good (long_line); << writes Windows-1252, >> reads UTF-8, so other characters are lost or read outside of the buffer (accent_lost, accent_changed); << stops at a NUL byte (nul_cuts, macron_cuts). getline of the C++ library is specified.","Verif.TextIO.Props")
claim("C105","partial","history_partial set_get_partial long_lists_lost unreadable_erased comma_never_removed comma_added_again comma_doubles truncated_attribute","Tags that are not empty, contain neither comma nor NUL and do not begin with U+FEFF, at most 4096 bytes together. False otherwise: longer lists are stored, not read, and erased by the next addTag (long_lists_lost), also if the attribute cannot be read (unreadable_erased); a tag with a comma is split, added again at every call and never removed; a foreign attribute ending inside a character is read outside of the buffer (truncated_attribute). The extended attributes of Linux are specified.","Verif.Tags.Props")
claim("C106","partial","deflate_inflate_partial deflated_prefix totals run_defined not_injective short_incomplete empty_rejected long_input_cut deflate_first zlib_exists","Proved for inputs whose zlib stream is not longer than the input. False otherwise: the output buffer has the size of the input and the result of zlib is ignored, so for every length two different inputs have the same output (not_injective, by counting, whatever zlib does), inputs up to 7 bytes are never complete (short_incomplete, empty_rejected), from 4 GiB on the rest is ignored (long_input_cut). zlib is specified by RFC 1950/1951 (Stream), Inflater is the model of C46.","Verif.Deflate.Props")
claim("C107","partial","lookup_plain kinds_exclusive missing_arbitrary exists_iff dangling isHidden_spec makeDirectory_spec remove_spec make_remove history list_entries list_none list_missing race_more race_less dot_again","Proved over a specified file system (a finite tree; links are not followed inside of a path). Proved for what exists; false for missing files: lstat fails and st_mode is uninitialised, so every answer is possible (missing_arbitrary, list_missing); remove is right all the same. listFiles is exact if nothing changes between its two passes and also lists . and .., so naive recursion never ends (dot_again); with one entry more in between it throws (race_more), with one less it has a File without a path at its end (race_less).","Verif.Dirs")
claim("C108","partial","anchors_contained anchors_edges center_nearest_partial isEmpty_iff empty_contains move_back_partial move_back_inexact cWise_spec cWise_nan plus_comm arith_rounds size_eq_spec","In IEEE double arithmetic. The nine points: all finite rectangles with a size that is not negative. Moving back is exact on binary grids only (witness move_back_inexact). Violations: an empty rectangle contains points, one that is not empty may contain none (empty_contains); NaN makes minimum and maximum depend on the order (cWise_nan).","Verif.Geo")
claim("C109","partial","degToRad_error_partial angle_roundtrip_partial roundtrip_inexact_13 halfturn_exact roundFrac_spec_partial roundFrac_idem_partial roundFrac_wrong frac_ub epsilon_spec","In IEEE double arithmetic, M_PI being the double of math.h. Angles: for 2^-1000 <= |x| <= 2^1000 (relative error 6 and 13 units of roundoff). roundFrac: for products up to 2^52 and exact powers of ten (pow is a parameter); idempotent up to 2^49. Violations: 13 degrees do not come back exactly (roundtrip_inexact_13), 2.675 becomes 2.68 though the double is below 2.675 (roundFrac_wrong), products from 2^63 on are undefined behaviour (frac_ub).","Verif.Math.Fl")
claim("C109","partial","roundFrac_spec_partial roundFrac_idem_partial frac_ub epsilon_spec","The variants for float (Verif/Math/FpFloat): up to 12 places the integer of the last place is always the nearest one, halves away from zero, for all products below 2^63; idempotent up to products of 2^22; floatMaschineEpsilon.","Verif.Math.Single")
claim("C56","partial","interpolate_partial interpolate_end","Interpolation for float.","Verif.Math.Single")
claim("C110","partial","settings_persist_partial quit_frees_all_partial save_without_prefs no_prefs_at_start quit_twice crash_in_save crash_between_lines_partial after_quit_ub init_twice_leaks init_twice_drops_settings init_empty_keeps crash_breaks_next_start","Proved for programs which call init once, and for keys and values which survive a file (C44). Violations: after quit no File can be created and no text converted, so init after quit is undefined behaviour (after_quit_ub); a second init leaks and discards unsaved settings (init_twice_leaks, init_twice_drops_settings); init with an empty id keeps the old preferences (init_empty_keeps); saving truncates the file first, so a crash while saving loses the old settings too and may leave a file with which the next start is undefined behaviour (crash_in_save, crash_breaks_next_start). Files are addressed by bundle id; loading the translation is assumed to succeed.","Verif.Life.Props")
claim("C111","partial","lastModified_within_partial lastModified_order_partial lastModified_backwards lastModified_missing execPath_partial execPath_reads_behind execName_partial execDir_partial execDir_root_throws","Linux. Violations: nanoseconds are divided by 1000 instead of 1000000, so dates are up to 1000 seconds too late and go backwards for files modified 1 to 999 seconds apart (lastModified_backwards); a missing file reads uninitialised memory (lastModified_missing); a path of more than 1023 bytes is cut, which reads behind the buffer if a character is cut (execPath_reads_behind); ExecDir throws for a program in the root directory (execDir_root_throws).","Verif.Prog.Props")
claim("C112","partial","typed_roundtrip_partial element_read content_reads bool_words bool_lost int_min_ub big_unsigned special_lost apostrophe_dropped by_position localName_qualified valueAsBool_spec","Every finite float is read back exactly, integers exactly, doubles to ten digits. Violations: a bool is written as 1 or 0, both of which valueAsBool reads as false (bool_lost); the smallest int64 cannot be written (int_min_ub); a uint64 above the largest int64 is read with undefined behaviour (big_unsigned); NaN and infinity become 0 (special_lost); apostrophes are lost (apostrophe_dropped); localName(i) is the qualified name (localName_qualified).","Verif.Xml.TypedProps")
claim("C112","partial","float_returns","","Verif.Xml.TypedFloat")
claim("C113","partial","documents documents_independent marked_when_closed unmarked_without_undo nothing_lost open_transaction_lost transaction_forgotten retain_does_not_keep kept_manager_outlives Verif.Doc.Changed.unchanged_means_saved Verif.Doc.Changed.saved_in_transaction Verif.Doc.Changed.inactive_unseen Verif.Doc.ManProps.abs_undo Verif.Doc.ManProps.abs_redo Verif.Doc.ManProps.abs_close Verif.Doc.ManProps.abs_register Verif.Doc.ManProps.abs_closeTransaction Verif.Doc.ManProps.abs_setMember","Proved for all histories of a client that reaches managers through their documents (documents, documents_independent) and, for the changed flag, for edits through an active undo manager with no saving inside a transaction (unchanged_means_saved). Violations: the document destructor deletes a retained manager, so the client's release is a use after free (retain_does_not_keep); a manager released by setUndoManager(false) but retained by a client keeps pointing to the document after its destruction (kept_manager_outlives); without undo manager, with an inactive one, or when saved inside a transaction that is rolled back, a changed document counts as unchanged (unmarked_without_undo, inactive_unseen, saved_in_transaction); an open transaction is leaked (open_transaction_lost).","Verif.Doc.Props")
claim("C114","partial","dotProduct_error mul_error mulVec_error dot_error dot3_error cross_error cross3_error mulV3_error trans_error det2_error det3_error det4_error left_right side_sound side_decided side_misses dot_comm dot2_comm cross_swap cross_self dot_self solve_residual inverse_error","All bounds and laws are proved for all doubles they name. Violation: solveLinearSystem eliminates without pivoting, so a well conditioned system can be solved with a wrong result (solve_residual). side_misses shows that the limit in side_decided is needed.","Verif.FpVec")
claim("C115","proved","dotProduct_int mul_int vertex_int vertex2_int side_int det_int inverse_int","Singular matrices: see C73.","Verif.FpVec")
claim("C116","partial","diff_safe never_fails solve_current report_entries print_after diagonals_leak copy_freed_twice","Safety, currency, the report and freeing of objects and steps are proved for all histories. Violations: all diagonals but the last one are never freed (diagonals_leak), and a copied result shares its steps, so that destroying both frees them twice (copy_freed_twice). calc and the output of solve to cout are not modelled; compared objects are borrowed.","Verif.DiffMem")
claim("C117","partial","int64_change_partial int64_overflow int32_change uint64_change unsigned_delta uint32_change unsigned_decrease change_unique integer_single keep_silent string_change string_change_ignore_case string_single string_ambiguous double_change double_tolerance_partial vertex_change special_reported","Proved for all values where it holds. Violations: a difference of int64 values that does not fit is undefined behaviour (int64_overflow), an unsigned value that gets smaller is shown with a huge positive difference (unsigned_decrease, unsigned_delta), lines of strings are ambiguous (string_ambiguous), unchanged NaN and infinities are reported (special_reported). How a double is printed is a parameter.","Verif.DiffMem")
claim("C118","partial","sort_stable sort_keeps_equivalents ptr_get_set ptr_copy ptr_new_unset ptr_sort_partial ptr_sort_null_first ptr_sort_null float_get_set float_ofList float_copy float_sort_permutes float_sort_partial float_nan_blocks","Proved for filled arrays without null pointers and NaN. Violations: elements of a new array are uninitialised (ptr_new_unset), an array of pointers with null in front is not sorted (ptr_sort_null_first) and with null elsewhere sorting is undefined behaviour (ptr_sort_null), FloatArray does not check its index (float_get_set), a NaN blocks sorting (float_nan_blocks).","Verif.Arrays")
claim("C119","partial","memory_refines memory_history destroyed_partial destroy_leaks_transaction close_wraps","Proved for all sequences with fewer than 2^32 registrations. Violations: the destructor forgets an open transaction, whose step and changes leak (destroy_leaks_transaction); the number of changes of a step wraps at 2^32 and close() then ignores the step (close_wraps).","Verif.UndoMem.Props")
claim("C120","partial","double_stored negative_zero_lost vertex_stored_partial vertex_small_moves_lost vertex_nan_accepted int_stored","Doubles (up to the sign of zero) and integers: proved. Vertices are compared with a tolerance: changes of at least 10^-6 are stored, smaller ones are lost, however often they are repeated (vertex_small_moves_lost); a NaN in a vertex is accepted and recorded as a change every time (vertex_nan_accepted).","Verif.Undo.Typed")
claim("C121","partial","lifetime_partial implicit_assign implicit_copy before_init after_quit sample_legal sample_result sample_assign sample_assign_own","Proved for objects made while the library runs and used in the same session, with own copy operations or equal counts. False for classes whose copying is left to the compiler: the counter and the mark are copied too, so that objects are destroyed while references are left, or never (implicit_assign, implicit_copy); for objects made before init: release does nothing, retain and autorelease use a null pointer (before_init); for references kept over quit: the pool is gone (after_quit).","Verif.ObjCopy")
claim("C122","partial","abs2_accuracy abs3_accuracy absN_accuracy abs3_exact abs2_exact abs3_signs abs2_signs abs_valid abs2_valid abs3_mono dist_symm dist_self dist3_accuracy dist2_accuracy dist3_pos dist3_triangle unit3_accuracy cosine_accuracy abs3_tiny abs3_huge dist_lost angle_nan","Proved for components up to 2^500 with one of at least 2^-480 (accuracy), and for all doubles (signs, symmetry, no NaN). False outside: vectors with components up to 2^-540 have the length zero, with one of 2^512 or more an infinite length (abs3_tiny, abs3_huge, dist_lost). Vectors shorter than 10^-6 are not normalized (first case of unit3_accuracy). The angle of (1,1,1) with itself is NaN, because the cosine is rounded above one (angle_nan; cosine_accuracy bounds the error). The model uses the IEEE root, proved to be the nearest double; of acos only the domain error is assumed, in angle_nan.","Verif.FpLen")
claim("C122","partial","sqrt_nearest sqrt_rel sqrt_exact sqrt_mono","","Verif.Fp")
claim("C111","partial","execPath_cut","","Verif.Home.Props")
claim("C123","partial","userDir_home propertyDir_partial propertyDir_shared propertyDir_homeless currentDir_exact_partial currentDir_gone tempDir_is_current tempDir_not_tmp","Proved for texts of 16-bit characters and program paths of at most 1023 bytes. Violations: without HOME the settings directory is in the root directory; programs of the same name share it; TempDir is the current directory, whatever TMPDIR says; undefined behaviour when the current directory is gone.","Verif.Home.Props")
claim("C124","partial","now_floor now_mono reference_date ns_accurate ns_whole ns_mono ns_loses_millisecond ns_toward_reference ns_nan ns_overflow ns_infinite local_is_utc operators value empty","fromNSDate proved for times up to 9 * 10^12 seconds from 2001. Violations: it takes the integral part instead of the nearest millisecond (ns_loses_millisecond), rounds toward 2001 on both sides (ns_toward_reference), and NaN, infinities and times beyond 2^54 s are undefined behaviour (ns_nan, ns_infinite, ns_overflow); local time is always UTC (local_is_utc).","Verif.DateVal.Props")
claim("C09","partial","deleteRange_past_end_exact deleteRange_past_end_wrong deleteRange_negative deleteRange_right_iff deleteRange_minus deleteRange_minus_front deleteRange_minus_room insertSelf_exact insertSelf_right_iff insertSelf_front insertSelf_end charAt_spec setCharAt_charAt","","Verif.Str.EditMore")
claim("C125","partial","language_exact language_missing language_partial never_promised variant_stays mixed messages_ignored not_installed again changes_locale translation_found translation_lost","Exact behaviour proved for every environment. Language and region are right if all categories have the same installed locale with a character set (language_partial). Violations: the form is de_DE, never de-DE (never_promised); the variant stays (variant_stays); with different locales for different categories the result is LC_CTYPE=de_DE (mixed), independent of the language for messages (messages_ignored), and no translation is found (translation_lost); one missing locale gives C (not_installed); the call changes the locale of the process (changes_locale). setlocale itself is modelled after POSIX and glibc.","Verif.Sys.Props")
claim("C126","partial","userId_exact userId_partial userId_any userFullName_exact userFullName_partial userFullName_unknown macAddress1_partial isMac_unique mac_never mac_null mac_failed","Exact behaviour for all environments. Violations: userId believes the variable USER (userId_any); userFullName includes room and telephone numbers; macAddress1 is always empty with the C library's list of interfaces (mac_never) and undefined for interfaces without an address (mac_null).","Verif.Sys.UserProps")
claim("C51","partial","set_edges_near union_near union_covers intersect_near intersection_near normalize_near","For all finite rectangles with numbers up to 2^n (n from -1020 to 1000) the edges are right up to a few parts in 2^49 of that bound, so that the violations by rounding are at most that large (namespace Verif.Geo.Near).","Verif.Geo.Near")
claim("C108","partial","move_back_near","Moving there and back for all finite rectangles: exact up to 3 parts in 2^49.","Verif.Geo.Near")
claim("C127","partial","table_in_memory live_entries iterate_and_modify","For every history: no access to freed memory, answers of the finite map, everything freed once (table_in_memory), number of live entries = size (live_entries). While iterating, replacing values, removing keys already delivered and clearing at the end are safe and the delivery is exact (iterate_and_modify).","Verif.HashMem.Props")
claim("C127","partial","key_by_reference put_while_iterating_is_safe remove_then_next_is_ub clear_then_next_is_ub copy_freed_twice put_delivers_twice put_skips","Arbitrary puts while iterating stay inside live memory (put_while_iterating_is_safe) but keys can be delivered twice or not at all (put_delivers_twice, put_skips); removing the pending key or clearing is a use after free for every table (remove_then_next_is_ub, clear_then_next_is_ub); a copy of a table is freed twice, for every table (copy_freed_twice). Partial because of these violations.","Verif.HashMem.Props")
claim("C128","partial","list_history undo_lists redo_lists rollback_lists forgotten removed_destroyed swap_once undone_add_always_leaks listSample_legal listSample_result","For every legal history: no undefined behaviour, reports, both walks, live elements and data, counts (list_history); a step is undone, redone and rolled back as a whole as seen by walking (undo_lists, redo_lists, rollback_lists); after forgetting the history exactly the held objects remain (forgotten, removed_destroyed). Fails: the element of an addition that was undone is never destroyed (undone_add_always_leaks). Undo and redo only outside of transactions; the lists themselves are kept as long as the history; an inactive manager and destructors that release other objects are not modelled.","Verif.UndoRef")
claim("C129","proved","iteration remove_while_iterating cursor_safe upcoming_removed_ub upcoming_removed_ends added_at_end search_ends_iteration nested_cursor","All histories of list calls, iterators and the cursor give exactly the results of positions in a sequence, and undefined behaviour exactly where the specification says (iteration); removing while iterating keeps exactly the others, for an iterator and for the cursor (remove_while_iterating); a caller that asks hasNext() before next() and uses no iterators has no undefined behaviour (cursor_safe). What callers must know: using an iterator whose upcoming object was removed is undefined without undo manager and ends the iteration early with one (upcoming_removed_ub, upcoming_removed_ends), and searching calls end an iteration with the cursor (search_ends_iteration, nested_cursor). With an undo manager elements are taken to stay alive (see C128); fewer than 2^32 calls.","Verif.LinkedList.Iter.Props")
claim("C130","partial","counters trailing_bytes rejected_stays cut_input_ub cut_stream_ub zlib_trailer reset_like_new again_ub second_stream_cut","The counters for every input for which Inflate returns (counters); appended bytes, for every input (trailing_bytes, rejected_stays); Reset for every state (reset_like_new). False: input in pieces. For every input that is cut before the bytes used, in particular every valid stream cut before its last bit, Inflate reads behind the input instead of asking for more (cut_input_ub, cut_stream_ub); NeedsInput is true before and false after every call that returns. At the end of zlib data 4 or 5 bytes that belong to it count as remaining (zlib_trailer); a finished object called again reads on, or behind the input (again_ub, second_stream_cut).","Verif.Inflate.Count.Props")

claim("C131","partial","outs_partial outs_example plus_spec plus_assoc plus_empty plus_int_partial plus_double int8_is_a_character int8_never_numeral char_high int64_min","Proved for chains of every length and all operands that fit (outs_partial), and for + of two texts without exception (plus_spec). False: an int8 operand of + is written as the character with that code, never as its numeral (int8_is_a_character, int8_never_numeral); a char that is not ASCII becomes U+FF80 to U+FFFF (char_high); the smallest int64 overflows (int64_min).","Verif.Str.ConcatProps")

claim("C11","partial","atIsIgnoreCase_spec atIsIgnoreCase_lower atIs_atIsIgnoreCase negative_partial","","Verif.Str.AtProps")
claim("C82","partial","circleInto_other circleInto_first","With the first point as the variable for the centre the radius is always zero.","Verif.Geom")
claim("C49","partial","replaceSelf_eq replaceRange_exact replaceRange_right_iff","","Verif.Arrays.Props")
claim("C21","proved","undo_redo","For texts also on the level of their memory (Str/UndoProps).","Verif.Str.UndoProps")
claim("C07","partial","undo_hash_iff undo_hash_fails","The cached hash code of a text survives an undo that restores another text.","Verif.Str.UndoProps")
claim("C132","partial","ascii_spec classes_disjoint isLetter_iff convert_twice convert_letters toLower_partial toLower_misses isLetter_misses texts_convert texts_miss","Proved for all characters and texts: the ASCII characters, the disjointness of the classes, the exact set of letters, conversions (ascii_spec, classes_disjoint, isLetter_iff, convert_twice, convert_letters, texts_convert). False: only ASCII letters and the German umlauts are converted although the other letters of ISO 8859-1 are classified (toLower_partial is the exact set; toLower_misses, texts_miss), and no letter of another script is a letter (isLetter_misses).","Verif.Str.CharProps")
claim("C75","partial","isValid_spec isValid_fp scale_spec","","Verif.Vtx.MeasureProps")
claim("C76","partial","isValid2_spec isValid2_fp scale2_spec","","Verif.Vtx.MeasureProps")
claim("C77","partial","initWcs_spec","","Verif.Vtx.MeasureProps")
claim("C133","partial","add_elements sub_elements smul_elements add_spec sub_spec add_rejects smul_spec dotProduct_spec dotProduct_same abs_spec normalize_spec normalize_null new_spec dotProduct_shorter","Proved for all lengths and elements. False: dotProduct does not compare the lengths, a shorter second vector is read behind its end (dotProduct_shorter), of a longer one only the beginning is used (dotProduct_spec).","Verif.Vtx.VecProps")
claim("C134","partial","transLength_segment transLength_partial scales_examples transLength_other_direction transAngle_spec transAngle_iff transAngle_rotation_partial transAngle_identity","Lengths are right for every transformation that scales all distances alike (transLength_partial, nonnegative lengths), otherwise only for segments along the x axis (transLength_segment, transLength_other_direction). Angles: the result is the unsigned angle to the x axis (transAngle_spec), right exactly if the image does not point downwards (transAngle_iff); the identity maps -90 degrees to 90 degrees (transAngle_identity).","Verif.Vtx.MeasureProps")
claim("C108","partial","place_spec alignBottomLeft_partial alignBottomLeft_inexact move_edges_partial shift_edges_partial move_is_shift","","Verif.Geo")
claim("C124","partial","dayOfYear_spec","The day of the year counts from 0.","Verif.DateVal.DayProps")
claim("C135","partial","registerBuffer_partial registerBuffer_undocumented registerBuffer_inactive registerAll_lost registerAll_unbounded registerBuffer_short","Every call throws, active or not, so the documentation is never met (registerBuffer_undocumented, registerBuffer_inactive); manager, object and block stay as they were (registerBuffer_partial). A copy of every block longer than eight bytes is lost, exactly the sum of their lengths, without bound (registerAll_lost, registerAll_unbounded).","Verif.Undo.Buffer")

claim("C92","partial","registerOff_nothing off_plain undo_after_untracked","With tracking switched off registrations have no effect at all (registerOff_nothing), and programs run as if they made none (off_plain). Switching it off with a history left is not safe: a program that gives up its references meanwhile makes the next undo use a destroyed object (undo_after_untracked).","Verif.UndoRef.Off")

claim("C82","partial","closestPointOnCircle_short_normal angleBisector_short angleBisector_short_both angleBisector2_short","Normals shorter than 10^-3: never a closest point (closestPointOnCircle_short_normal). Bisector of short vectors: right exactly if both point in the same direction, or both are short and equally long (angleBisector_short, angleBisector_short_both, angleBisector2_short).","Verif.Geom")

claim("C76","partial","Verif.Vtx.P2.solveLinearSystem_iff","solveLinearSystem has a result exactly if determinant and pivot are not 0 (solveLinearSystem_iff).","Verif.Vtx")
claim("C77","partial","rotationUV_almost_opposite rotationUV_short_iff","The remaining cases of rotationUV exactly: almost opposite vectors and vectors with a cross product below 10^-6 are right exactly if they are parallel (rotationUV_almost_opposite, rotationUV_short_iff).","Verif.Vtx")

claim("C81","partial","closestPointOnLine2_short_iff","Shorter directions: right exactly if the point lies on the perpendicular through the given point of the line (closestPointOnLine2_short_iff).","Verif.Geom")

claim("C55","partial","less_itself_iff itself_only_equal","Exactly the finite doubles from 2^34 on and those below -2^34 are less (and greater) than themselves.","Verif.Math.Fl")
claim("C130","partial","fresh_report","A new object reports no bytes.","Verif.Inflate.Count.Props")
claim("C51","partial","common_point_intersects intersection_exact_iff disjoint_points","Rectangles with a common point intersect, for all doubles; intersection consists of the common points exactly if they intersect.","Verif.Geo")
claim("C136","proved","vector_words vector_determined matrix_lines","The text of a number is a parameter.","Verif.Print")
claim("C137","proved","create_ok copy_same trace_text no_symbols","Linux. The names of the frames are characters (the decoding is C09). If the system has no memory for the names, the constructor reads through a null pointer (no_symbols), which the statement excludes.","Verif.Print")
claim("C56","partial","random01_range random01_every random01Win_range random01Win_one probability_threshold probability_ub","random() without bounds: at least 0 and less than 1 on Linux and macOS (erand48 as POSIX specifies it), every multiple of 2^-48 from exactly one state; on Windows 1 is included. probability(p) is true for t+1 of the 10001 random numbers, t the whole part of 10000 p up to a rounding.","Verif.Math.Fl")
claim("C55","partial","tolerance_total tolerance_gap","At least one of the three holds if each number is zero or at least 2^-20 in magnitude; for tiny numbers possibly none (tolerance_gap).","Verif.Math.Fl")
claim("C56","partial","interpolate_error interpolate_range interpolateRange_range","Interpolation of doubles is exact up to three roundings, at the end up to two, and leaves the range by no more.","Verif.Math.Fl")
claim("C79","partial","closestPointOnLine_short closestPointSegment_short isPointOnLine_iff isPointOnPlane_iff isPointOnSegment_iff","The three point tests are characterised for all vectors: true exactly if the direction is at least 10^-3 long and the point is closer than 10^-6 to the object (segment: the foot lies between the ends up to the tolerance).","Verif.Geom")
claim("C82","partial","closestPointOnCircle_negative isPointOnCircle_iff","Negative radii: the farthest point instead of the closest (closestPointOnCircle_negative). The test for points of a circle is characterised for all arguments.","Verif.Geom")
claim("C80","partial","distanceLineToLine_parallel_all distanceLineToLine_unusable distanceLineToLine_nan_iff","All pairs of directions are covered: the three cases parallel, usable and neither are exhaustive, and the distance is not a number exactly for the last and for a null first direction counted as parallel.","Verif.Geom")
claim("C81","partial","intersectionPoint2_iff intersectionPoint2_invalid crosses_iff crosses_order extensionPointOnLine_flat extensionPointOnLine_short","intersectionPoint2 and crosses are characterised for all arguments (intersectionPoint2_iff, crosses_iff); crosses is not symmetric (crosses_order); a ray with a direction shorter than 10^-6 meets no segment.","Verif.Geom")
claim("C72","partial","add_all","Sum and difference for all sizes (add_all): refused, undefined or computed from cells that do not correspond, except for square matrices of one size.","Verif.Mx.Mat")
claim("C88","partial","guess_all guess_ub_iff guess_no_other_error","The result is given for every stream; bytes behind the end are read for exactly five streams (guess_ub_iff).","Verif.Guess")
claim("C39","partial","text_then_end base64_then_end base64_indented","Indentation never follows text written with writeCData directly before an end tag, but Base64 text after a child of an indented element is followed by it (base64_indented).","Verif.Xml")
claim("C49","partial","init_sized init_terminated","The constructors with a buffer succeed exactly if the bytes exist, and append a 0.","Verif.Arrays.Props")
claim("C45","partial","bubble_sorts equal_codes_found","Two equal codes of one level are found, whatever the order of the nodes.","Verif.Inflate")
json.dump({"claims": sorted(C, key=lambda c: c["property"])}, open(os.path.join(os.path.dirname(__file__), "..", "MANIFEST.json"), "w"), indent=1)
