{
 "claims": [
  {
   "property": "C01",
   "status": "proved",
   "theorems": [
    "Verif.Serializer.serializeBEInt16_spec",
    "Verif.Serializer.serializeBEInt24_spec",
    "Verif.Serializer.serializeBEInt32_spec",
    "Verif.Serializer.serializeBEInt64_spec",
    "Verif.Serializer.serializeLEInt16_spec",
    "Verif.Serializer.serializeLEUInt16_spec",
    "Verif.Serializer.serializeLEInt24_spec",
    "Verif.Serializer.serializeLEInt32_spec",
    "Verif.Serializer.serializeLEInt64_spec",
    "Verif.Serializer.serializeLEDouble_spec",
    "Verif.Serializer.serializeLEFloat_spec",
    "Verif.Serializer.deserializeBE16_spec",
    "Verif.Serializer.deserializeLE16_spec",
    "Verif.Serializer.deserializeBE32_spec",
    "Verif.Serializer.deserializeLE32_spec",
    "Verif.Serializer.deserializeBE64_spec",
    "Verif.Serializer.deserializeLE64_spec",
    "Verif.Serializer.deserializeLEDouble_spec",
    "Verif.Serializer.roundtrip_BE16",
    "Verif.Serializer.roundtrip_BE32",
    "Verif.Serializer.roundtrip_BE64",
    "Verif.Serializer.roundtrip_LE16",
    "Verif.Serializer.roundtrip_LEU16",
    "Verif.Serializer.roundtrip_LE32",
    "Verif.Serializer.roundtrip_LE64",
    "Verif.Serializer.roundtrip_LEDouble",
    "Verif.Serializer.serializeBEInt32_outside"
   ],
   "note": "24-bit values have no matching read function in the code; their layout is proved."
  },
  {
   "property": "C02",
   "status": "partial",
   "theorems": [
    "Verif.Base64.decode_encode_partial",
    "Verif.Base64.decode_encode_actual",
    "Verif.Base64.decode_encode_violated",
    "Verif.Base64.encode_injective",
    "Verif.Base64.decode_safe",
    "Verif.Base64.decode_reads_outside"
   ],
   "note": "The code violates the property: padded text decodes with one surplus zero byte. Proved: exact result of decode after encode, identity when no padding is needed, the violation."
  },
  {
   "property": "C03",
   "status": "proved",
   "theorems": [
    "Verif.Base64.encode_rfc4648",
    "Verif.Base64.encode_length",
    "Verif.Base64.encode_shape"
   ],
   "note": ""
  },
  {
   "property": "C04",
   "status": "proved",
   "theorems": [
    "Verif.CRC.crc8_bitwise",
    "Verif.CRC.crc8_append"
   ],
   "note": ""
  },
  {
   "property": "C05",
   "status": "proved",
   "theorems": [
    "Verif.Hashtable.Props.table_is_map",
    "Verif.Hashtable.Props.spec_determined",
    "Verif.Hashtable.Props.containsKey_null_value"
   ],
   "note": "For any fixed hash function of the keys; see C07 for String keys."
  },
  {
   "property": "C06",
   "status": "proved",
   "theorems": [
    "Verif.Hashtable.Props.table_is_map",
    "Verif.Hashtable.Props.iteration_exact",
    "Verif.Hashtable.Props.hasNext_exact",
    "Verif.Hashtable.Props.load_bounded"
   ],
   "note": ""
  },
  {
   "property": "C07",
   "status": "partial",
   "theorems": [
    "Verif.Str.HashProps.equal_strings_equal_hash_partial",
    "Verif.Str.HashProps.neverHashed_clean",
    "Verif.Str.HashProps.string_keys_partial",
    "Verif.Str.HashProps.hashCode_twice",
    "Verif.Str.HashProps.hash_after_assign",
    "Verif.Str.HashProps.hash_after_toLowerCase",
    "Verif.Str.HashProps.table_lookup_fails",
    "Verif.Str.UndoProps.undo_hash_iff",
    "Verif.Str.UndoProps.undo_hash_fails"
   ],
   "note": "The code violates the claim: assignment, toLowerCase and toUpperCase keep the cached hash, so equal strings can have different hash codes (proved). Proved for strings whose cache is not stale. The cached hash code of a text survives an undo that restores another text."
  },
  {
   "property": "C08",
   "status": "proved",
   "theorems": [
    "Verif.Str.CmpProps.equals_iff",
    "Verif.Str.CmpProps.equalsIgnoreCase_iff",
    "Verif.Str.CmpProps.compareTo_spec",
    "Verif.Str.CmpProps.compareTo_total_order",
    "Verif.Str.CmpProps.less_iff"
   ],
   "note": ""
  },
  {
   "property": "C09",
   "status": "partial",
   "theorems": [
    "Verif.Str.EditProps.edits_partial",
    "Verif.Str.EditProps.constructed",
    "Verif.Str.EditProps.deleteRange_past_end",
    "Verif.Str.EditProps.deleteRange_negative_length",
    "Verif.Str.EditProps.insert_into_itself",
    "Verif.Str.EditMore.deleteRange_past_end_exact",
    "Verif.Str.EditMore.deleteRange_past_end_wrong",
    "Verif.Str.EditMore.deleteRange_negative",
    "Verif.Str.EditMore.deleteRange_right_iff",
    "Verif.Str.EditMore.deleteRange_minus",
    "Verif.Str.EditMore.deleteRange_minus_front",
    "Verif.Str.EditMore.deleteRange_minus_room",
    "Verif.Str.EditMore.insertSelf_exact",
    "Verif.Str.EditMore.insertSelf_right_iff",
    "Verif.Str.EditMore.insertSelf_front",
    "Verif.Str.EditMore.insertSelf_end",
    "Verif.Str.EditMore.charAt_spec",
    "Verif.Str.EditMore.setCharAt_charAt"
   ],
   "note": "The code violates the claim for range deletions past the end, negative lengths and insertion of a string into itself; what it does then is proved for all strings (EditMore): range deletion is right exactly inside of the string (deleteRange_right_iff), insertion into itself exactly at the front or for strings that repeat their first i characters (insertSelf_right_iff)."
  },
  {
   "property": "C10",
   "status": "proved",
   "theorems": [
    "Verif.Str.PartProps.substring_spec",
    "Verif.Str.PartProps.substringFrom_spec",
    "Verif.Str.PartProps.trim_spec",
    "Verif.Str.PartProps.isTrim_unique",
    "Verif.Str.PartProps.trim_idempotent",
    "Verif.Str.PartProps.reverse_spec",
    "Verif.Str.PartProps.reverse_reverse",
    "Verif.Str.PartProps.toLowerCase_spec",
    "Verif.Str.PartProps.toUpperCase_spec",
    "Verif.Str.PartProps.replaceChar_spec",
    "Verif.Str.PartProps.lower_upper_char",
    "Verif.Str.PartProps.count_spec"
   ],
   "note": ""
  },
  {
   "property": "C100",
   "status": "partial",
   "theorems": [
    "Verif.Log.Props.log_serial",
    "Verif.Log.Props.log_progress",
    "Verif.Log.Props.log_ends",
    "Verif.Log.Props.whole_lines",
    "Verif.Log.Props.line_message",
    "Verif.Log.Props.message_cut",
    "Verif.Log.Props.last_error_race",
    "Verif.Log.Props.last_error_quiet"
   ],
   "note": "False: a character whose code ends in 00 cuts the line, also the end of the colour (message_cut); lastErrorMessage does not lock and can read freed text (last_error_race). Linux; the date as text and the translations are arguments; Windows-1252 as console charset."
  },
  {
   "property": "C101",
   "status": "partial",
   "theorems": [
    "Verif.FileIO.Props.session_spec",
    "Verif.FileIO.Props.written_read_back",
    "Verif.FileIO.Props.crash_prefix",
    "Verif.FileIO.Props.session_defined",
    "Verif.FileIO.Props.in_turn_defined",
    "Verif.FileIO.Props.read_after_write",
    "Verif.FileIO.Props.read_overflow",
    "Verif.FileIO.Props.size_late"
   ],
   "note": "Proved for all histories that are defined (session_spec) and all histories that seek between reading and writing are defined (session_defined). False without this: reading directly after writing is undefined (read_after_write); readFully does not look at the size of the buffer (read_overflow); size() before close may be the old one (size_late). The C library is specified: names, byte lists, buffered writes; a full disk only as a failing close."
  },
  {
   "property": "C102",
   "status": "partial",
   "theorems": [
    "Verif.FileIO.Handles.fair_owned",
    "Verif.FileIO.Handles.fair_no_leak",
    "Verif.FileIO.Handles.fair_defined",
    "Verif.FileIO.Handles.two_files",
    "Verif.FileIO.Handles.remove_spec",
    "Verif.FileIO.Handles.rename_spec",
    "Verif.FileIO.Handles.rename_missing",
    "Verif.FileIO.Handles.open_status",
    "Verif.FileIO.Handles.create_empty",
    "Verif.FileIO.Handles.create_destroys",
    "Verif.FileIO.Handles.copy_dangles",
    "Verif.FileIO.Handles.close_failed",
    "Verif.FileIO.Handles.closed_undefined",
    "Verif.FileIO.Handles.open_leaks",
    "Verif.FileIO.Handles.create_leaks",
    "Verif.FileIO.Handles.destroy_leaks",
    "Verif.FileIO.Handles.open_status_lost"
   ],
   "note": "Holds for programs that only copy, assign, destroy and open closed files (fair_*). False otherwise: a copy shares the stream and dangles when the other closes (copy_dangles), opening again or destroying an open file leaks (open_leaks, create_leaks, destroy_leaks), a failed close leaves a dangling pointer (close_failed), calls on a closed file are undefined (closed_undefined). createNewFile empties a file that exists (create_destroys) against its documentation. errno is read after logging (open_status_lost). Directories and links are not modelled."
  },
  {
   "property": "C103",
   "status": "partial",
   "theorems": [
    "Verif.UnitTest.Props.passes_iff",
    "Verif.UnitTest.Props.execute_counts",
    "Verif.UnitTest.Props.execute_zero",
    "Verif.UnitTest.Props.execute_defined",
    "Verif.UnitTest.Props.check_defined",
    "Verif.UnitTest.Props.near_passes",
    "Verif.UnitTest.Props.passes_near",
    "Verif.UnitTest.Props.same_passes",
    "Verif.UnitTest.Props.no_argument",
    "Verif.UnitTest.Props.number_selects",
    "Verif.UnitTest.Props.word_selects_all",
    "Verif.UnitTest.Props.negative_passes",
    "Verif.UnitTest.Props.infinity_fails",
    "Verif.UnitTest.Props.nan_fails",
    "Verif.UnitTest.Props.min_message",
    "Verif.UnitTest.Props.beyond_is_fine",
    "Verif.UnitTest.Props.odd_arguments"
   ],
   "note": "False: testEquals(uint64, int32) accepts 2^64-1 for -1 (negative_passes); infinity does not equal infinity (infinity_fails); the message of a failed comparison with the smallest int64 is undefined (min_message); the number of a test that does not exist gives 0, success (beyond_is_fine); a minus sign selects test 0 (odd_arguments). Exceptions other than jm::Exception are not modelled."
  },
  {
   "property": "C104",
   "status": "partial",
   "theorems": [
    "Verif.TextIO.Props.read_line",
    "Verif.TextIO.Props.read_last",
    "Verif.TextIO.Props.read_end",
    "Verif.TextIO.Props.read_all",
    "Verif.TextIO.Props.utf8_comes_back",
    "Verif.TextIO.Props.ascii_comes_back",
    "Verif.TextIO.Props.long_line",
    "Verif.TextIO.Props.accent_lost",
    "Verif.TextIO.Props.accent_changed",
    "Verif.TextIO.Props.nul_cuts",
    "Verif.TextIO.Props.macron_cuts"
   ],
   "note": "Lines up to 255 bytes. False: a longer line makes the stream fail for good (long_line); << writes Windows-1252, >> reads UTF-8, so other characters are lost or read outside of the buffer (accent_lost, accent_changed); << stops at a NUL byte (nul_cuts, macron_cuts). getline of the C++ library is specified."
  },
  {
   "property": "C105",
   "status": "partial",
   "theorems": [
    "Verif.Tags.Props.history_partial",
    "Verif.Tags.Props.set_get_partial",
    "Verif.Tags.Props.long_lists_lost",
    "Verif.Tags.Props.unreadable_erased",
    "Verif.Tags.Props.comma_never_removed",
    "Verif.Tags.Props.comma_added_again",
    "Verif.Tags.Props.comma_doubles",
    "Verif.Tags.Props.truncated_attribute"
   ],
   "note": "Tags that are not empty, contain neither comma nor NUL and do not begin with U+FEFF, at most 4096 bytes together. False otherwise: longer lists are stored, not read, and erased by the next addTag (long_lists_lost), also if the attribute cannot be read (unreadable_erased); a tag with a comma is split, added again at every call and never removed; a foreign attribute ending inside a character is read outside of the buffer (truncated_attribute). The extended attributes of Linux are specified."
  },
  {
   "property": "C106",
   "status": "partial",
   "theorems": [
    "Verif.Deflate.Props.deflate_inflate_partial",
    "Verif.Deflate.Props.deflated_prefix",
    "Verif.Deflate.Props.totals",
    "Verif.Deflate.Props.run_defined",
    "Verif.Deflate.Props.not_injective",
    "Verif.Deflate.Props.short_incomplete",
    "Verif.Deflate.Props.empty_rejected",
    "Verif.Deflate.Props.long_input_cut",
    "Verif.Deflate.Props.deflate_first",
    "Verif.Deflate.Props.zlib_exists"
   ],
   "note": "Proved for inputs whose zlib stream is not longer than the input. False otherwise: the output buffer has the size of the input and the result of zlib is ignored, so for every length two different inputs have the same output (not_injective, by counting, whatever zlib does), inputs up to 7 bytes are never complete (short_incomplete, empty_rejected), from 4 GiB on the rest is ignored (long_input_cut). zlib is specified by RFC 1950/1951 (Stream), Inflater is the model of C46."
  },
  {
   "property": "C107",
   "status": "partial",
   "theorems": [
    "Verif.Dirs.lookup_plain",
    "Verif.Dirs.kinds_exclusive",
    "Verif.Dirs.missing_arbitrary",
    "Verif.Dirs.exists_iff",
    "Verif.Dirs.dangling",
    "Verif.Dirs.isHidden_spec",
    "Verif.Dirs.makeDirectory_spec",
    "Verif.Dirs.remove_spec",
    "Verif.Dirs.make_remove",
    "Verif.Dirs.history",
    "Verif.Dirs.list_entries",
    "Verif.Dirs.list_none",
    "Verif.Dirs.list_missing",
    "Verif.Dirs.race_more",
    "Verif.Dirs.race_less",
    "Verif.Dirs.dot_again"
   ],
   "note": "Proved over a specified file system (a finite tree; links are not followed inside of a path). Proved for what exists; false for missing files: lstat fails and st_mode is uninitialised, so every answer is possible (missing_arbitrary, list_missing); remove is right all the same. listFiles is exact if nothing changes between its two passes and also lists . and .., so naive recursion never ends (dot_again); with one entry more in between it throws (race_more), with one less it has a File without a path at its end (race_less)."
  },
  {
   "property": "C108",
   "status": "partial",
   "theorems": [
    "Verif.Geo.anchors_contained",
    "Verif.Geo.anchors_edges",
    "Verif.Geo.center_nearest_partial",
    "Verif.Geo.isEmpty_iff",
    "Verif.Geo.empty_contains",
    "Verif.Geo.move_back_partial",
    "Verif.Geo.move_back_inexact",
    "Verif.Geo.cWise_spec",
    "Verif.Geo.cWise_nan",
    "Verif.Geo.plus_comm",
    "Verif.Geo.arith_rounds",
    "Verif.Geo.size_eq_spec",
    "Verif.Geo.Near.move_back_near",
    "Verif.Geo.place_spec",
    "Verif.Geo.alignBottomLeft_partial",
    "Verif.Geo.alignBottomLeft_inexact",
    "Verif.Geo.move_edges_partial",
    "Verif.Geo.shift_edges_partial",
    "Verif.Geo.move_is_shift"
   ],
   "note": "In IEEE double arithmetic. The nine points: all finite rectangles with a size that is not negative. Moving back is exact on binary grids only (witness move_back_inexact). Violations: an empty rectangle contains points, one that is not empty may contain none (empty_contains); NaN makes minimum and maximum depend on the order (cWise_nan). Moving there and back for all finite rectangles: exact up to 3 parts in 2^49."
  },
  {
   "property": "C109",
   "status": "partial",
   "theorems": [
    "Verif.Math.Fl.degToRad_error_partial",
    "Verif.Math.Fl.angle_roundtrip_partial",
    "Verif.Math.Fl.roundtrip_inexact_13",
    "Verif.Math.Fl.halfturn_exact",
    "Verif.Math.Fl.roundFrac_spec_partial",
    "Verif.Math.Fl.roundFrac_idem_partial",
    "Verif.Math.Fl.roundFrac_wrong",
    "Verif.Math.Fl.frac_ub",
    "Verif.Math.Fl.epsilon_spec",
    "Verif.Math.Single.roundFrac_spec_partial",
    "Verif.Math.Single.roundFrac_idem_partial",
    "Verif.Math.Single.frac_ub",
    "Verif.Math.Single.epsilon_spec"
   ],
   "note": "In IEEE double arithmetic, M_PI being the double of math.h. Angles: for 2^-1000 <= |x| <= 2^1000 (relative error 6 and 13 units of roundoff). roundFrac: for products up to 2^52 and exact powers of ten (pow is a parameter); idempotent up to 2^49. Violations: 13 degrees do not come back exactly (roundtrip_inexact_13), 2.675 becomes 2.68 though the double is below 2.675 (roundFrac_wrong), products from 2^63 on are undefined behaviour (frac_ub). The variants for float (Verif/Math/FpFloat): up to 12 places the integer of the last place is always the nearest one, halves away from zero, for all products below 2^63; idempotent up to products of 2^22; floatMaschineEpsilon."
  },
  {
   "property": "C11",
   "status": "partial",
   "theorems": [
    "Verif.Str.SearchProps.indexOfChar_spec",
    "Verif.Str.SearchProps.lastIndexOfChar_spec",
    "Verif.Str.SearchProps.lastIndexOfCharFrom_spec",
    "Verif.Str.SearchProps.lastIndexOfStrFrom_spec",
    "Verif.Str.SearchProps.lastIndexOfStr_spec",
    "Verif.Str.SearchProps.indexOfStr_partial",
    "Verif.Str.SearchProps.constructed_terminated",
    "Verif.Str.SearchProps.indexOf_stale_match",
    "Verif.Str.SearchProps.indexOf_reads_outside",
    "Verif.Str.SearchProps.startsWith_spec",
    "Verif.Str.SearchProps.atIs_spec",
    "Verif.Str.SearchProps.endsWith_spec",
    "Verif.Str.SafeProps.indexOfStr_noOverhang_partial",
    "Verif.Str.SafeProps.noOverhang_single",
    "Verif.Str.SafeProps.noOverhang_pair",
    "Verif.Str.AtProps.atIsIgnoreCase_spec",
    "Verif.Str.AtProps.atIsIgnoreCase_lower",
    "Verif.Str.AtProps.atIs_atIsIgnoreCase",
    "Verif.Str.AtProps.negative_partial"
   ],
   "note": "indexOf(string) compares with characters behind the end (stale matches and reads outside the buffer are proved); correct for freshly constructed strings."
  },
  {
   "property": "C110",
   "status": "partial",
   "theorems": [
    "Verif.Life.Props.settings_persist_partial",
    "Verif.Life.Props.quit_frees_all_partial",
    "Verif.Life.Props.save_without_prefs",
    "Verif.Life.Props.no_prefs_at_start",
    "Verif.Life.Props.quit_twice",
    "Verif.Life.Props.crash_in_save",
    "Verif.Life.Props.crash_between_lines_partial",
    "Verif.Life.Props.after_quit_ub",
    "Verif.Life.Props.init_twice_leaks",
    "Verif.Life.Props.init_twice_drops_settings",
    "Verif.Life.Props.init_empty_keeps",
    "Verif.Life.Props.crash_breaks_next_start"
   ],
   "note": "Proved for programs which call init once, and for keys and values which survive a file (C44). Violations: after quit no File can be created and no text converted, so init after quit is undefined behaviour (after_quit_ub); a second init leaks and discards unsaved settings (init_twice_leaks, init_twice_drops_settings); init with an empty id keeps the old preferences (init_empty_keeps); saving truncates the file first, so a crash while saving loses the old settings too and may leave a file with which the next start is undefined behaviour (crash_in_save, crash_breaks_next_start). Files are addressed by bundle id; loading the translation is assumed to succeed."
  },
  {
   "property": "C111",
   "status": "partial",
   "theorems": [
    "Verif.Prog.Props.lastModified_within_partial",
    "Verif.Prog.Props.lastModified_order_partial",
    "Verif.Prog.Props.lastModified_backwards",
    "Verif.Prog.Props.lastModified_missing",
    "Verif.Prog.Props.execPath_partial",
    "Verif.Prog.Props.execPath_reads_behind",
    "Verif.Prog.Props.execName_partial",
    "Verif.Prog.Props.execDir_partial",
    "Verif.Prog.Props.execDir_root_throws",
    "Verif.Home.Props.execPath_cut"
   ],
   "note": "Linux. Violations: nanoseconds are divided by 1000 instead of 1000000, so dates are up to 1000 seconds too late and go backwards for files modified 1 to 999 seconds apart (lastModified_backwards); a missing file reads uninitialised memory (lastModified_missing); a path of more than 1023 bytes is cut, which reads behind the buffer if a character is cut (execPath_reads_behind); ExecDir throws for a program in the root directory (execDir_root_throws)."
  },
  {
   "property": "C112",
   "status": "partial",
   "theorems": [
    "Verif.Xml.TypedProps.typed_roundtrip_partial",
    "Verif.Xml.TypedProps.element_read",
    "Verif.Xml.TypedProps.content_reads",
    "Verif.Xml.TypedProps.bool_words",
    "Verif.Xml.TypedProps.bool_lost",
    "Verif.Xml.TypedProps.int_min_ub",
    "Verif.Xml.TypedProps.big_unsigned",
    "Verif.Xml.TypedProps.special_lost",
    "Verif.Xml.TypedProps.apostrophe_dropped",
    "Verif.Xml.TypedProps.by_position",
    "Verif.Xml.TypedProps.localName_qualified",
    "Verif.Xml.TypedProps.valueAsBool_spec",
    "Verif.Xml.TypedFloat.float_returns"
   ],
   "note": "Every finite float is read back exactly, integers exactly, doubles to ten digits. Violations: a bool is written as 1 or 0, both of which valueAsBool reads as false (bool_lost); the smallest int64 cannot be written (int_min_ub); a uint64 above the largest int64 is read with undefined behaviour (big_unsigned); NaN and infinity become 0 (special_lost); apostrophes are lost (apostrophe_dropped); localName(i) is the qualified name (localName_qualified)."
  },
  {
   "property": "C113",
   "status": "partial",
   "theorems": [
    "Verif.Doc.Props.documents",
    "Verif.Doc.Props.documents_independent",
    "Verif.Doc.Props.marked_when_closed",
    "Verif.Doc.Props.unmarked_without_undo",
    "Verif.Doc.Props.nothing_lost",
    "Verif.Doc.Props.open_transaction_lost",
    "Verif.Doc.Props.transaction_forgotten",
    "Verif.Doc.Props.retain_does_not_keep",
    "Verif.Doc.Props.kept_manager_outlives",
    "Verif.Doc.Changed.unchanged_means_saved",
    "Verif.Doc.Changed.saved_in_transaction",
    "Verif.Doc.Changed.inactive_unseen",
    "Verif.Doc.ManProps.abs_undo",
    "Verif.Doc.ManProps.abs_redo",
    "Verif.Doc.ManProps.abs_close",
    "Verif.Doc.ManProps.abs_register",
    "Verif.Doc.ManProps.abs_closeTransaction",
    "Verif.Doc.ManProps.abs_setMember"
   ],
   "note": "Proved for all histories of a client that reaches managers through their documents (documents, documents_independent) and, for the changed flag, for edits through an active undo manager with no saving inside a transaction (unchanged_means_saved). Violations: the document destructor deletes a retained manager, so the client's release is a use after free (retain_does_not_keep); a manager released by setUndoManager(false) but retained by a client keeps pointing to the document after its destruction (kept_manager_outlives); without undo manager, with an inactive one, or when saved inside a transaction that is rolled back, a changed document counts as unchanged (unmarked_without_undo, inactive_unseen, saved_in_transaction); an open transaction is leaked (open_transaction_lost)."
  },
  {
   "property": "C114",
   "status": "partial",
   "theorems": [
    "Verif.FpVec.dotProduct_error",
    "Verif.FpVec.mul_error",
    "Verif.FpVec.mulVec_error",
    "Verif.FpVec.dot_error",
    "Verif.FpVec.dot3_error",
    "Verif.FpVec.cross_error",
    "Verif.FpVec.cross3_error",
    "Verif.FpVec.mulV3_error",
    "Verif.FpVec.trans_error",
    "Verif.FpVec.det2_error",
    "Verif.FpVec.det3_error",
    "Verif.FpVec.det4_error",
    "Verif.FpVec.left_right",
    "Verif.FpVec.side_sound",
    "Verif.FpVec.side_decided",
    "Verif.FpVec.side_misses",
    "Verif.FpVec.dot_comm",
    "Verif.FpVec.dot2_comm",
    "Verif.FpVec.cross_swap",
    "Verif.FpVec.cross_self",
    "Verif.FpVec.dot_self",
    "Verif.FpVec.solve_residual",
    "Verif.FpVec.inverse_error"
   ],
   "note": "All bounds and laws are proved for all doubles they name. Violation: solveLinearSystem eliminates without pivoting, so a well conditioned system can be solved with a wrong result (solve_residual). side_misses shows that the limit in side_decided is needed."
  },
  {
   "property": "C115",
   "status": "proved",
   "theorems": [
    "Verif.FpVec.dotProduct_int",
    "Verif.FpVec.mul_int",
    "Verif.FpVec.vertex_int",
    "Verif.FpVec.vertex2_int",
    "Verif.FpVec.side_int",
    "Verif.FpVec.det_int",
    "Verif.FpVec.inverse_int"
   ],
   "note": "Singular matrices: see C73."
  },
  {
   "property": "C116",
   "status": "partial",
   "theorems": [
    "Verif.DiffMem.diff_safe",
    "Verif.DiffMem.never_fails",
    "Verif.DiffMem.solve_current",
    "Verif.DiffMem.report_entries",
    "Verif.DiffMem.print_after",
    "Verif.DiffMem.diagonals_leak",
    "Verif.DiffMem.copy_freed_twice"
   ],
   "note": "Safety, currency, the report and freeing of objects and steps are proved for all histories. Violations: all diagonals but the last one are never freed (diagonals_leak), and a copied result shares its steps, so that destroying both frees them twice (copy_freed_twice). calc and the output of solve to cout are not modelled; compared objects are borrowed."
  },
  {
   "property": "C117",
   "status": "partial",
   "theorems": [
    "Verif.DiffMem.int64_change_partial",
    "Verif.DiffMem.int64_overflow",
    "Verif.DiffMem.int32_change",
    "Verif.DiffMem.uint64_change",
    "Verif.DiffMem.unsigned_delta",
    "Verif.DiffMem.uint32_change",
    "Verif.DiffMem.unsigned_decrease",
    "Verif.DiffMem.change_unique",
    "Verif.DiffMem.integer_single",
    "Verif.DiffMem.keep_silent",
    "Verif.DiffMem.string_change",
    "Verif.DiffMem.string_change_ignore_case",
    "Verif.DiffMem.string_single",
    "Verif.DiffMem.string_ambiguous",
    "Verif.DiffMem.double_change",
    "Verif.DiffMem.double_tolerance_partial",
    "Verif.DiffMem.vertex_change",
    "Verif.DiffMem.special_reported"
   ],
   "note": "Proved for all values where it holds. Violations: a difference of int64 values that does not fit is undefined behaviour (int64_overflow), an unsigned value that gets smaller is shown with a huge positive difference (unsigned_decrease, unsigned_delta), lines of strings are ambiguous (string_ambiguous), unchanged NaN and infinities are reported (special_reported). How a double is printed is a parameter."
  },
  {
   "property": "C118",
   "status": "partial",
   "theorems": [
    "Verif.Arrays.sort_stable",
    "Verif.Arrays.sort_keeps_equivalents",
    "Verif.Arrays.ptr_get_set",
    "Verif.Arrays.ptr_copy",
    "Verif.Arrays.ptr_new_unset",
    "Verif.Arrays.ptr_sort_partial",
    "Verif.Arrays.ptr_sort_null_first",
    "Verif.Arrays.ptr_sort_null",
    "Verif.Arrays.float_get_set",
    "Verif.Arrays.float_ofList",
    "Verif.Arrays.float_copy",
    "Verif.Arrays.float_sort_permutes",
    "Verif.Arrays.float_sort_partial",
    "Verif.Arrays.float_nan_blocks"
   ],
   "note": "Proved for filled arrays without null pointers and NaN. Violations: elements of a new array are uninitialised (ptr_new_unset), an array of pointers with null in front is not sorted (ptr_sort_null_first) and with null elsewhere sorting is undefined behaviour (ptr_sort_null), FloatArray does not check its index (float_get_set), a NaN blocks sorting (float_nan_blocks)."
  },
  {
   "property": "C119",
   "status": "partial",
   "theorems": [
    "Verif.UndoMem.Props.memory_refines",
    "Verif.UndoMem.Props.memory_history",
    "Verif.UndoMem.Props.destroyed_partial",
    "Verif.UndoMem.Props.destroy_leaks_transaction",
    "Verif.UndoMem.Props.close_wraps"
   ],
   "note": "Proved for all sequences with fewer than 2^32 registrations. Violations: the destructor forgets an open transaction, whose step and changes leak (destroy_leaks_transaction); the number of changes of a step wraps at 2^32 and close() then ignores the step (close_wraps)."
  },
  {
   "property": "C12",
   "status": "partial",
   "theorems": [
    "Verif.Str.SearchProps.replaceStr_partial",
    "Verif.Str.SearchProps.replace_empty_diverges",
    "Verif.Str.SafeProps.replaceStr_noOverhang_partial"
   ],
   "note": "An empty search string diverges (proved)."
  },
  {
   "property": "C120",
   "status": "partial",
   "theorems": [
    "Verif.Undo.Typed.double_stored",
    "Verif.Undo.Typed.negative_zero_lost",
    "Verif.Undo.Typed.vertex_stored_partial",
    "Verif.Undo.Typed.vertex_small_moves_lost",
    "Verif.Undo.Typed.vertex_nan_accepted",
    "Verif.Undo.Typed.int_stored"
   ],
   "note": "Doubles (up to the sign of zero) and integers: proved. Vertices are compared with a tolerance: changes of at least 10^-6 are stored, smaller ones are lost, however often they are repeated (vertex_small_moves_lost); a NaN in a vertex is accepted and recorded as a change every time (vertex_nan_accepted)."
  },
  {
   "property": "C121",
   "status": "partial",
   "theorems": [
    "Verif.ObjCopy.lifetime_partial",
    "Verif.ObjCopy.implicit_assign",
    "Verif.ObjCopy.implicit_copy",
    "Verif.ObjCopy.before_init",
    "Verif.ObjCopy.after_quit",
    "Verif.ObjCopy.sample_legal",
    "Verif.ObjCopy.sample_result",
    "Verif.ObjCopy.sample_assign",
    "Verif.ObjCopy.sample_assign_own"
   ],
   "note": "Proved for objects made while the library runs and used in the same session, with own copy operations or equal counts. False for classes whose copying is left to the compiler: the counter and the mark are copied too, so that objects are destroyed while references are left, or never (implicit_assign, implicit_copy); for objects made before init: release does nothing, retain and autorelease use a null pointer (before_init); for references kept over quit: the pool is gone (after_quit)."
  },
  {
   "property": "C122",
   "status": "partial",
   "theorems": [
    "Verif.FpLen.abs2_accuracy",
    "Verif.FpLen.abs3_accuracy",
    "Verif.FpLen.absN_accuracy",
    "Verif.FpLen.abs3_exact",
    "Verif.FpLen.abs2_exact",
    "Verif.FpLen.abs3_signs",
    "Verif.FpLen.abs2_signs",
    "Verif.FpLen.abs_valid",
    "Verif.FpLen.abs2_valid",
    "Verif.FpLen.abs3_mono",
    "Verif.FpLen.dist_symm",
    "Verif.FpLen.dist_self",
    "Verif.FpLen.dist3_accuracy",
    "Verif.FpLen.dist2_accuracy",
    "Verif.FpLen.dist3_pos",
    "Verif.FpLen.dist3_triangle",
    "Verif.FpLen.unit3_accuracy",
    "Verif.FpLen.cosine_accuracy",
    "Verif.FpLen.abs3_tiny",
    "Verif.FpLen.abs3_huge",
    "Verif.FpLen.dist_lost",
    "Verif.FpLen.angle_nan",
    "Verif.Fp.sqrt_nearest",
    "Verif.Fp.sqrt_rel",
    "Verif.Fp.sqrt_exact",
    "Verif.Fp.sqrt_mono"
   ],
   "note": "Proved for components up to 2^500 with one of at least 2^-480 (accuracy), and for all doubles (signs, symmetry, no NaN). False outside: vectors with components up to 2^-540 have the length zero, with one of 2^512 or more an infinite length (abs3_tiny, abs3_huge, dist_lost). Vectors shorter than 10^-6 are not normalized (first case of unit3_accuracy). The angle of (1,1,1) with itself is NaN, because the cosine is rounded above one (angle_nan; cosine_accuracy bounds the error). The model uses the IEEE root, proved to be the nearest double; of acos only the domain error is assumed, in angle_nan."
  },
  {
   "property": "C123",
   "status": "partial",
   "theorems": [
    "Verif.Home.Props.userDir_home",
    "Verif.Home.Props.propertyDir_partial",
    "Verif.Home.Props.propertyDir_shared",
    "Verif.Home.Props.propertyDir_homeless",
    "Verif.Home.Props.currentDir_exact_partial",
    "Verif.Home.Props.currentDir_gone",
    "Verif.Home.Props.tempDir_is_current",
    "Verif.Home.Props.tempDir_not_tmp"
   ],
   "note": "Proved for texts of 16-bit characters and program paths of at most 1023 bytes. Violations: without HOME the settings directory is in the root directory; programs of the same name share it; TempDir is the current directory, whatever TMPDIR says; undefined behaviour when the current directory is gone."
  },
  {
   "property": "C124",
   "status": "partial",
   "theorems": [
    "Verif.DateVal.Props.now_floor",
    "Verif.DateVal.Props.now_mono",
    "Verif.DateVal.Props.reference_date",
    "Verif.DateVal.Props.ns_accurate",
    "Verif.DateVal.Props.ns_whole",
    "Verif.DateVal.Props.ns_mono",
    "Verif.DateVal.Props.ns_loses_millisecond",
    "Verif.DateVal.Props.ns_toward_reference",
    "Verif.DateVal.Props.ns_nan",
    "Verif.DateVal.Props.ns_overflow",
    "Verif.DateVal.Props.ns_infinite",
    "Verif.DateVal.Props.local_is_utc",
    "Verif.DateVal.Props.operators",
    "Verif.DateVal.Props.value",
    "Verif.DateVal.Props.empty",
    "Verif.DateVal.DayProps.dayOfYear_spec"
   ],
   "note": "fromNSDate proved for times up to 9 * 10^12 seconds from 2001. Violations: it takes the integral part instead of the nearest millisecond (ns_loses_millisecond), rounds toward 2001 on both sides (ns_toward_reference), and NaN, infinities and times beyond 2^54 s are undefined behaviour (ns_nan, ns_infinite, ns_overflow); local time is always UTC (local_is_utc). The day of the year counts from 0."
  },
  {
   "property": "C125",
   "status": "partial",
   "theorems": [
    "Verif.Sys.Props.language_exact",
    "Verif.Sys.Props.language_missing",
    "Verif.Sys.Props.language_partial",
    "Verif.Sys.Props.never_promised",
    "Verif.Sys.Props.variant_stays",
    "Verif.Sys.Props.mixed",
    "Verif.Sys.Props.messages_ignored",
    "Verif.Sys.Props.not_installed",
    "Verif.Sys.Props.again",
    "Verif.Sys.Props.changes_locale",
    "Verif.Sys.Props.translation_found",
    "Verif.Sys.Props.translation_lost"
   ],
   "note": "Exact behaviour proved for every environment. Language and region are right if all categories have the same installed locale with a character set (language_partial). Violations: the form is de_DE, never de-DE (never_promised); the variant stays (variant_stays); with different locales for different categories the result is LC_CTYPE=de_DE (mixed), independent of the language for messages (messages_ignored), and no translation is found (translation_lost); one missing locale gives C (not_installed); the call changes the locale of the process (changes_locale). setlocale itself is modelled after POSIX and glibc."
  },
  {
   "property": "C126",
   "status": "partial",
   "theorems": [
    "Verif.Sys.UserProps.userId_exact",
    "Verif.Sys.UserProps.userId_partial",
    "Verif.Sys.UserProps.userId_any",
    "Verif.Sys.UserProps.userFullName_exact",
    "Verif.Sys.UserProps.userFullName_partial",
    "Verif.Sys.UserProps.userFullName_unknown",
    "Verif.Sys.UserProps.macAddress1_partial",
    "Verif.Sys.UserProps.isMac_unique",
    "Verif.Sys.UserProps.mac_never",
    "Verif.Sys.UserProps.mac_null",
    "Verif.Sys.UserProps.mac_failed"
   ],
   "note": "Exact behaviour for all environments. Violations: userId believes the variable USER (userId_any); userFullName includes room and telephone numbers; macAddress1 is always empty with the C library's list of interfaces (mac_never) and undefined for interfaces without an address (mac_null)."
  },
  {
   "property": "C127",
   "status": "partial",
   "theorems": [
    "Verif.HashMem.Props.table_in_memory",
    "Verif.HashMem.Props.live_entries",
    "Verif.HashMem.Props.iterate_and_modify",
    "Verif.HashMem.Props.key_by_reference",
    "Verif.HashMem.Props.put_while_iterating_is_safe",
    "Verif.HashMem.Props.remove_then_next_is_ub",
    "Verif.HashMem.Props.clear_then_next_is_ub",
    "Verif.HashMem.Props.copy_freed_twice",
    "Verif.HashMem.Props.put_delivers_twice",
    "Verif.HashMem.Props.put_skips"
   ],
   "note": "For every history: no access to freed memory, answers of the finite map, everything freed once (table_in_memory), number of live entries = size (live_entries). While iterating, replacing values, removing keys already delivered and clearing at the end are safe and the delivery is exact (iterate_and_modify). Arbitrary puts while iterating stay inside live memory (put_while_iterating_is_safe) but keys can be delivered twice or not at all (put_delivers_twice, put_skips); removing the pending key or clearing is a use after free for every table (remove_then_next_is_ub, clear_then_next_is_ub); a copy of a table is freed twice, for every table (copy_freed_twice). Partial because of these violations."
  },
  {
   "property": "C128",
   "status": "partial",
   "theorems": [
    "Verif.UndoRef.list_history",
    "Verif.UndoRef.undo_lists",
    "Verif.UndoRef.redo_lists",
    "Verif.UndoRef.rollback_lists",
    "Verif.UndoRef.forgotten",
    "Verif.UndoRef.removed_destroyed",
    "Verif.UndoRef.swap_once",
    "Verif.UndoRef.undone_add_always_leaks",
    "Verif.UndoRef.listSample_legal",
    "Verif.UndoRef.listSample_result"
   ],
   "note": "For every legal history: no undefined behaviour, reports, both walks, live elements and data, counts (list_history); a step is undone, redone and rolled back as a whole as seen by walking (undo_lists, redo_lists, rollback_lists); after forgetting the history exactly the held objects remain (forgotten, removed_destroyed). Fails: the element of an addition that was undone is never destroyed (undone_add_always_leaks). Undo and redo only outside of transactions; the lists themselves are kept as long as the history; an inactive manager and destructors that release other objects are not modelled."
  },
  {
   "property": "C129",
   "status": "proved",
   "theorems": [
    "Verif.LinkedList.Iter.Props.iteration",
    "Verif.LinkedList.Iter.Props.remove_while_iterating",
    "Verif.LinkedList.Iter.Props.cursor_safe",
    "Verif.LinkedList.Iter.Props.upcoming_removed_ub",
    "Verif.LinkedList.Iter.Props.upcoming_removed_ends",
    "Verif.LinkedList.Iter.Props.added_at_end",
    "Verif.LinkedList.Iter.Props.search_ends_iteration",
    "Verif.LinkedList.Iter.Props.nested_cursor"
   ],
   "note": "All histories of list calls, iterators and the cursor give exactly the results of positions in a sequence, and undefined behaviour exactly where the specification says (iteration); removing while iterating keeps exactly the others, for an iterator and for the cursor (remove_while_iterating); a caller that asks hasNext() before next() and uses no iterators has no undefined behaviour (cursor_safe). What callers must know: using an iterator whose upcoming object was removed is undefined without undo manager and ends the iteration early with one (upcoming_removed_ub, upcoming_removed_ends), and searching calls end an iteration with the cursor (search_ends_iteration, nested_cursor). With an undo manager elements are taken to stay alive (see C128); fewer than 2^32 calls."
  },
  {
   "property": "C13",
   "status": "partial",
   "theorems": [
    "Verif.Num.Props.valueOf_partial",
    "Verif.Num.Props.valueOfU_spec",
    "Verif.Num.Props.toInt_numeral",
    "Verif.Num.Props.toInt_valueOf_partial",
    "Verif.Num.Props.valueOf_injective",
    "Verif.Num.Props.valueOf_min_overflows",
    "Verif.Num.Props.toInt_bad_char",
    "Verif.Num.Props.toInt_quirks",
    "Verif.Num.Props.toBool_valueOfBool"
   ],
   "note": "Fails for the most negative value only (signed overflow, proved)."
  },
  {
   "property": "C130",
   "status": "partial",
   "theorems": [
    "Verif.Inflate.Count.Props.counters",
    "Verif.Inflate.Count.Props.trailing_bytes",
    "Verif.Inflate.Count.Props.rejected_stays",
    "Verif.Inflate.Count.Props.cut_input_ub",
    "Verif.Inflate.Count.Props.cut_stream_ub",
    "Verif.Inflate.Count.Props.zlib_trailer",
    "Verif.Inflate.Count.Props.reset_like_new",
    "Verif.Inflate.Count.Props.again_ub",
    "Verif.Inflate.Count.Props.second_stream_cut",
    "Verif.Inflate.Count.Props.fresh_report"
   ],
   "note": "The counters for every input for which Inflate returns (counters); appended bytes, for every input (trailing_bytes, rejected_stays); Reset for every state (reset_like_new). False: input in pieces. For every input that is cut before the bytes used, in particular every valid stream cut before its last bit, Inflate reads behind the input instead of asking for more (cut_input_ub, cut_stream_ub); NeedsInput is true before and false after every call that returns. At the end of zlib data 4 or 5 bytes that belong to it count as remaining (zlib_trailer); a finished object called again reads on, or behind the input (again_ub, second_stream_cut). A new object reports no bytes."
  },
  {
   "property": "C131",
   "status": "partial",
   "theorems": [
    "Verif.Str.ConcatProps.outs_partial",
    "Verif.Str.ConcatProps.outs_example",
    "Verif.Str.ConcatProps.plus_spec",
    "Verif.Str.ConcatProps.plus_assoc",
    "Verif.Str.ConcatProps.plus_empty",
    "Verif.Str.ConcatProps.plus_int_partial",
    "Verif.Str.ConcatProps.plus_double",
    "Verif.Str.ConcatProps.int8_is_a_character",
    "Verif.Str.ConcatProps.int8_never_numeral",
    "Verif.Str.ConcatProps.char_high",
    "Verif.Str.ConcatProps.int64_min"
   ],
   "note": "Proved for chains of every length and all operands that fit (outs_partial), and for + of two texts without exception (plus_spec). False: an int8 operand of + is written as the character with that code, never as its numeral (int8_is_a_character, int8_never_numeral); a char that is not ASCII becomes U+FF80 to U+FFFF (char_high); the smallest int64 overflows (int64_min)."
  },
  {
   "property": "C132",
   "status": "partial",
   "theorems": [
    "Verif.Str.CharProps.ascii_spec",
    "Verif.Str.CharProps.classes_disjoint",
    "Verif.Str.CharProps.isLetter_iff",
    "Verif.Str.CharProps.convert_twice",
    "Verif.Str.CharProps.convert_letters",
    "Verif.Str.CharProps.toLower_partial",
    "Verif.Str.CharProps.toLower_misses",
    "Verif.Str.CharProps.isLetter_misses",
    "Verif.Str.CharProps.texts_convert",
    "Verif.Str.CharProps.texts_miss"
   ],
   "note": "Proved for all characters and texts: the ASCII characters, the disjointness of the classes, the exact set of letters, conversions (ascii_spec, classes_disjoint, isLetter_iff, convert_twice, convert_letters, texts_convert). False: only ASCII letters and the German umlauts are converted although the other letters of ISO 8859-1 are classified (toLower_partial is the exact set; toLower_misses, texts_miss), and no letter of another script is a letter (isLetter_misses)."
  },
  {
   "property": "C133",
   "status": "partial",
   "theorems": [
    "Verif.Vtx.VecProps.add_elements",
    "Verif.Vtx.VecProps.sub_elements",
    "Verif.Vtx.VecProps.smul_elements",
    "Verif.Vtx.VecProps.add_spec",
    "Verif.Vtx.VecProps.sub_spec",
    "Verif.Vtx.VecProps.add_rejects",
    "Verif.Vtx.VecProps.smul_spec",
    "Verif.Vtx.VecProps.dotProduct_spec",
    "Verif.Vtx.VecProps.dotProduct_same",
    "Verif.Vtx.VecProps.abs_spec",
    "Verif.Vtx.VecProps.normalize_spec",
    "Verif.Vtx.VecProps.normalize_null",
    "Verif.Vtx.VecProps.new_spec",
    "Verif.Vtx.VecProps.dotProduct_shorter"
   ],
   "note": "Proved for all lengths and elements. False: dotProduct does not compare the lengths, a shorter second vector is read behind its end (dotProduct_shorter), of a longer one only the beginning is used (dotProduct_spec)."
  },
  {
   "property": "C134",
   "status": "partial",
   "theorems": [
    "Verif.Vtx.MeasureProps.transLength_segment",
    "Verif.Vtx.MeasureProps.transLength_partial",
    "Verif.Vtx.MeasureProps.scales_examples",
    "Verif.Vtx.MeasureProps.transLength_other_direction",
    "Verif.Vtx.MeasureProps.transAngle_spec",
    "Verif.Vtx.MeasureProps.transAngle_iff",
    "Verif.Vtx.MeasureProps.transAngle_rotation_partial",
    "Verif.Vtx.MeasureProps.transAngle_identity"
   ],
   "note": "Lengths are right for every transformation that scales all distances alike (transLength_partial, nonnegative lengths), otherwise only for segments along the x axis (transLength_segment, transLength_other_direction). Angles: the result is the unsigned angle to the x axis (transAngle_spec), right exactly if the image does not point downwards (transAngle_iff); the identity maps -90 degrees to 90 degrees (transAngle_identity)."
  },
  {
   "property": "C135",
   "status": "partial",
   "theorems": [
    "Verif.Undo.Buffer.registerBuffer_partial",
    "Verif.Undo.Buffer.registerBuffer_undocumented",
    "Verif.Undo.Buffer.registerBuffer_inactive",
    "Verif.Undo.Buffer.registerAll_lost",
    "Verif.Undo.Buffer.registerAll_unbounded",
    "Verif.Undo.Buffer.registerBuffer_short"
   ],
   "note": "Every call throws, active or not, so the documentation is never met (registerBuffer_undocumented, registerBuffer_inactive); manager, object and block stay as they were (registerBuffer_partial). A copy of every block longer than eight bytes is lost, exactly the sum of their lengths, without bound (registerAll_lost, registerAll_unbounded)."
  },
  {
   "property": "C136",
   "status": "proved",
   "theorems": [
    "Verif.Print.vector_words",
    "Verif.Print.vector_determined",
    "Verif.Print.matrix_lines"
   ],
   "note": "The text of a number is a parameter."
  },
  {
   "property": "C137",
   "status": "proved",
   "theorems": [
    "Verif.Print.create_ok",
    "Verif.Print.copy_same",
    "Verif.Print.trace_text",
    "Verif.Print.no_symbols"
   ],
   "note": "Linux. The names of the frames are characters (the decoding is C09). If the system has no memory for the names, the constructor reads through a null pointer (no_symbols), which the statement excludes."
  },
  {
   "property": "C14",
   "status": "proved",
   "theorems": [
    "Verif.Lists.TokenizerProps.tokenizer_words",
    "Verif.Lists.TokenizerProps.tokenizer_delims",
    "Verif.Lists.TokenizerProps.delims_unique",
    "Verif.Lists.TokenizerProps.split_spec"
   ],
   "note": ""
  },
  {
   "property": "C15",
   "status": "partial",
   "theorems": [
    "Verif.Sort.Props.sort_sorts",
    "Verif.Sort.Props.byteArray_sort",
    "Verif.Sort.Props.sorted_unique",
    "Verif.Sort.Props.sort_permutes",
    "Verif.Sort.Props.nan_blocks_sorting"
   ],
   "note": "FloatArray holding NaN is not sorted (proved); every container whose comparison is a total preorder is. StringList::sort is covered by Verif.Lists.StringListProps.list_history_partial."
  },
  {
   "property": "C16",
   "status": "partial",
   "theorems": [
    "Verif.Stack.Props.history",
    "Verif.Stack.Props.take_from_empty",
    "Verif.Stack.Props.copy_double_free"
   ],
   "note": "Any history that never takes from an empty stack; pop/top on an empty stack is undefined behaviour and copying a stack double-frees (both proved)."
  },
  {
   "property": "C17",
   "status": "partial",
   "theorems": [
    "Verif.Charset.Utf8Props.encode_standard",
    "Verif.Charset.Utf8Props.encode_total",
    "Verif.Charset.Utf8Props.roundtrip_partial",
    "Verif.Charset.Utf8Props.decode_standard",
    "Verif.Charset.Utf8Props.encode_injective",
    "Verif.Charset.Utf8Props.leading_feff_lost",
    "Verif.Charset.Utf8Props.nul_truncates",
    "Verif.Charset.Utf8Props.supplementary_nonstandard",
    "Verif.Charset.Utf8Props.supplementary_misread",
    "Verif.Charset.Utf8Props.truncated_reads_outside",
    "Verif.Charset.Utf8Props.inner_bom_reads_outside"
   ],
   "note": "A leading U+FEFF and NUL do not survive; characters above U+FFFF are not written as the standard demands; malformed input is read past its end (all proved)."
  },
  {
   "property": "C18",
   "status": "partial",
   "theorems": [
    "Verif.Charset.Utf16Props.encode_be",
    "Verif.Charset.Utf16Props.be_roundtrip_partial",
    "Verif.Charset.Utf16Props.be_own_output_reads_outside",
    "Verif.Charset.Utf16Props.be_truncated",
    "Verif.Charset.Utf16Props.le_decode_partial",
    "Verif.Charset.Utf16Props.le_roundtrip_empty",
    "Verif.Charset.Utf16Props.bom_ignored",
    "Verif.Charset.Utf16Props.be_mark_partial",
    "Verif.Charset.Utf16Props.be_mark_truncated",
    "Verif.Charset.Utf16Props.le_mark_partial",
    "Verif.Charset.Utf16Props.utf8_mark_throws"
   ],
   "note": "The code violates the property in several ways (proved); positive part for characters with nonzero low byte."
  },
  {
   "property": "C19",
   "status": "proved",
   "theorems": [
    "Verif.Charset.PageProps.win1252_roundtrip",
    "Verif.Charset.PageProps.win1252_text_roundtrip",
    "Verif.Charset.PageProps.win1252_standard_partial",
    "Verif.Charset.PageProps.win1252_circumflex",
    "Verif.Charset.PageProps.win1252_collisions",
    "Verif.Charset.PageProps.raw_roundtrip",
    "Verif.Charset.PageProps.raw_sign_extends"
   ],
   "note": "Agreement with the standard table fails for 0x88 only (proved)."
  },
  {
   "property": "C20",
   "status": "partial",
   "theorems": [
    "Verif.Charset.PageProps.mac_roundtrip_partial",
    "Verif.Charset.PageProps.mac_violations",
    "Verif.Charset.PageProps.mac_decode_standard_partial",
    "Verif.Charset.PageProps.mac_encode_standard"
   ],
   "note": "Fails for the bytes 7F, 92, 93, B0 (proved)."
  },
  {
   "property": "C21",
   "status": "proved",
   "theorems": [
    "Verif.Undo.Props.undo_restores",
    "Verif.Undo.Props.undo_restores_all",
    "Verif.Str.UndoProps.undo_redo"
   ],
   "note": "Member memory is a map from addresses to cells; a registration saves a range of cells. For texts also on the level of their memory (Str/UndoProps)."
  },
  {
   "property": "C22",
   "status": "partial",
   "theorems": [
    "Verif.Undo.Props.history",
    "Verif.Undo.Props.undo_redo_inverse",
    "Verif.Undo.Props.undo_redo_available",
    "Verif.Undo.Props.change_discards_redo",
    "Verif.Undo.Props.undo_in_transaction"
   ],
   "note": "history holds for all sequences in which undo/redo are not called inside a transaction; the code does not prevent that call and then a rollback writes stale values (undo_in_transaction)."
  },
  {
   "property": "C23",
   "status": "partial",
   "theorems": [
    "Verif.Undo.Props.rollback_restores",
    "Verif.Undo.Props.commit_keeps",
    "Verif.Undo.Props.inner_rollback_ignored",
    "Verif.Undo.Props.commit_inactive_loses"
   ],
   "note": "An explicit rollback on an inner level only lowers the level (inner_rollback_ignored); committing while recording is off drops the changes (commit_inactive_loses)."
  },
  {
   "property": "C24",
   "status": "proved",
   "theorems": [
    "Verif.Undo.Props.close_transaction",
    "Verif.Undo.Props.lastFailure_ok",
    "Verif.Undo.Props.nan_does_not_fail"
   ],
   "note": "setMember(double) with NaN does not register a failing status (nan_does_not_fail)."
  },
  {
   "property": "C25",
   "status": "partial",
   "theorems": [
    "Verif.LinkedList.Props.history_partial",
    "Verif.LinkedList.Props.no_leak",
    "Verif.LinkedList.Props.reads_pure",
    "Verif.LinkedList.Props.swapped_once",
    "Verif.LinkedList.Props.swap_swaps",
    "Verif.LinkedList.Props.swap_ignored"
   ],
   "note": "swapData does nothing without an undo manager (swap_ignored); everything else holds for all histories"
  },
  {
   "property": "C26",
   "status": "proved",
   "theorems": [
    "Verif.LinkedList.Props.undo_history",
    "Verif.LinkedList.Props.undo_redo"
   ],
   "note": "undo/redo not inside a transaction, sizes below 2^32; that the elements stay alive while the undo manager is in use is C128"
  },
  {
   "property": "C27",
   "status": "proved",
   "theorems": [
    "Verif.RefCount.refcount_safe",
    "Verif.RefCount.last_release_destroys",
    "Verif.RefCount.mutual_exclusion"
   ],
   "note": "any number of threads and objects, every interleaving; clients use only objects they own a reference to, with fewer than 2^31-1 references to one object; objects whose pool is null are not modelled"
  },
  {
   "property": "C28",
   "status": "proved",
   "theorems": [
    "Verif.RefCount.drain_releases_all",
    "Verif.RefCount.pool_never_over_releases",
    "Verif.RefCount.drain_keeps_retained",
    "Verif.RefCount.Pool.pool_entries",
    "Verif.RefCount.Pool.spec_all"
   ],
   "note": "every interleaving; Pool.pool_entries is about the linked entries"
  },
  {
   "property": "C29",
   "status": "proved",
   "theorems": [
    "Verif.Date.Props.construct_components",
    "Verif.Date.Props.components_injective",
    "Verif.Date.Props.reconstruct",
    "Verif.Date.Props.time_of_day"
   ],
   "note": "For time stamps whose year fits the uint16 the API returns."
  },
  {
   "property": "C30",
   "status": "proved",
   "theorems": [
    "Verif.Date.Props.calendar",
    "Verif.Date.Props.epoch",
    "Verif.Date.Props.same_day"
   ],
   "note": ""
  },
  {
   "property": "C31",
   "status": "partial",
   "theorems": [
    "Verif.Date.Props.weekday_partial",
    "Verif.Date.Props.weekday_epoch",
    "Verif.Date.Props.weekday_cycle",
    "Verif.Date.Props.weekday_before_1970",
    "Verif.Date.Props.weekday_witness"
   ],
   "note": "Negative weekdays before 1970 (proved)."
  },
  {
   "property": "C32",
   "status": "partial",
   "theorems": [
    "Verif.Num.IntegerProps.toHexString_spec",
    "Verif.Num.IntegerProps.fromHex_spec",
    "Verif.Num.IntegerProps.hex_roundtrip_partial",
    "Verif.Num.IntegerProps.hex_negative",
    "Verif.Num.IntegerProps.digitCount_spec"
   ],
   "note": "Negative numbers become the empty text (proved)."
  },
  {
   "property": "C33",
   "status": "proved",
   "theorems": [
    "Verif.Num.IntegerProps.toRomanString_spec",
    "Verif.Num.IntegerProps.roman_value",
    "Verif.Num.IntegerProps.roman_injective",
    "Verif.Num.IntegerProps.roman_nonpositive"
   ],
   "note": ""
  },
  {
   "property": "C34",
   "status": "partial",
   "theorems": [
    "Verif.Num.IntegerProps.latin_value_partial",
    "Verif.Num.IntegerProps.latin_injective_partial",
    "Verif.Num.IntegerProps.latin_correct_partial",
    "Verif.Num.IntegerProps.latinValue_unique",
    "Verif.Num.IntegerProps.latin_26_multiples",
    "Verif.Num.IntegerProps.latin_26",
    "Verif.Num.IntegerProps.latin_collision"
   ],
   "note": "Multiples of 26 yield non-letters, numbers beyond 26*2^31 collide (proved)."
  },
  {
   "property": "C35",
   "status": "proved",
   "theorems": [
    "Verif.Math.divFloor_modFloor",
    "Verif.Math.divFloor_eq_fdiv",
    "Verif.Math.floor_by_zero"
   ],
   "note": ""
  },
  {
   "property": "C36",
   "status": "partial",
   "theorems": [
    "Verif.Math.powerOf2_iff",
    "Verif.Math.ceilPowerOf2_partial",
    "Verif.Math.ceilPowerOf2_outside"
   ],
   "note": "ceilPowerOf2 is wrong for 0 and above 2^31 (proved)."
  },
  {
   "property": "C37",
   "status": "proved",
   "theorems": [
    "Verif.Diff.Props.distance_minimal",
    "Verif.Diff.Props.distance_zero",
    "Verif.Diff.Props.distance_symmetric"
   ],
   "note": "equals is assumed symmetric; lengths below 2^31"
  },
  {
   "property": "C38",
   "status": "partial",
   "theorems": [
    "Verif.Diff.Props.script_valid_partial",
    "Verif.Diff.Props.objects",
    "Verif.Diff.Props.objects_one_sided",
    "Verif.Diff.Props.reportOp_right",
    "Verif.Diff.Props.deleted_object_wrong",
    "Verif.Diff.Props.modified_exchanged",
    "Verif.Diff.Props.added_object_wrong"
   ],
   "note": "the operations form a minimal script; the objects named are wrong for deletions above, insertions below and replacements below the main diagonal"
  },
  {
   "property": "C39",
   "status": "partial",
   "theorems": [
    "Verif.Xml.read_back_partial",
    "Verif.Xml.read_back_exact",
    "Verif.Xml.parse_document_partial",
    "Verif.Xml.text_in_one_piece",
    "Verif.Xml.attrs_value",
    "Verif.Xml.file_read_back",
    "Verif.Xml.written_nulFree",
    "Verif.Xml.apostrophe_lost",
    "Verif.Xml.numeric_reference_dropped",
    "Verif.Xml.declaration_unbalanced",
    "Verif.Xml.trailing_text_dropped",
    "Verif.Xml.bad_input",
    "Verif.Xml.white_space_split",
    "Verif.Xml.attrs_copy_ub",
    "Verif.Xml.text_then_end",
    "Verif.Xml.base64_then_end",
    "Verif.Xml.base64_indented"
   ],
   "note": "False as stated: the writer escapes ' as &apos;, which the parser drops (apostrophe_lost, for every text containing one). Proved: everything else written by any history of calls is reported by the parser, exactly, up to the indentation asked for; also for arbitrary documents of the specified fragment of XML; and through the bytes of a file. Indentation never follows text written with writeCData directly before an end tag, but Base64 text after a child of an indented element is followed by it (base64_indented)."
  },
  {
   "property": "C40",
   "status": "proved",
   "theorems": [
    "Verif.Xml.document_nested",
    "Verif.Xml.writer_total",
    "Verif.Xml.text_escaped",
    "Verif.Xml.text_without_markup",
    "Verif.Xml.before_startDocument",
    "Verif.Xml.late_attribute_dropped",
    "Verif.Xml.raw_text_unescaped"
   ],
   "note": "for all call histories which close what they open; text passed with xmlencode=false is the caller's responsibility (raw_text_unescaped)"
  },
  {
   "property": "C41",
   "status": "partial",
   "theorems": [
    "Verif.Url.Props.urlDecode_tokens",
    "Verif.Url.Props.url_roundtrip_partial",
    "Verif.Url.Props.urlEncode_injective",
    "Verif.Url.Props.url_umlaut",
    "Verif.Url.Props.url_replaced",
    "Verif.Url.Props.url_bad_percent"
   ],
   "note": "Holds for ASCII; non-ASCII text is damaged or read out of bounds (proved)."
  },
  {
   "property": "C42",
   "status": "partial",
   "theorems": [
    "Verif.MemStream.stream_is_tape_partial",
    "Verif.MemStream.write_overflows",
    "Verif.MemStream.not_staysInside",
    "Verif.MemStream.seek_negative",
    "Verif.MemStream.seek_end_ignored"
   ],
   "note": "writes beyond the end of the buffer and seeking before its start are undefined behaviour"
  },
  {
   "property": "C43",
   "status": "partial",
   "theorems": [
    "Verif.Path.normalize_spec",
    "Verif.Path.normalize_normal",
    "Verif.Path.parent_name_spec",
    "Verif.Path.name_last_component",
    "Verif.Path.fileIn_partial",
    "Verif.Path.fileOf_partial",
    "Verif.Path.recompose_partial",
    "Verif.Path.extension_partial",
    "Verif.Path.fileIn_trailing",
    "Verif.Path.recompose_relative",
    "Verif.Path.recompose_root",
    "Verif.Path.parent_of_root_child",
    "Verif.Path.extension_no_dot",
    "Verif.Path.extension_dir_dot"
   ],
   "note": "normalisation holds for all strings; File(parent(), name()) is the same path except for plain names and the root (violations proved); File(dir, child) for every child with a component (with a child of separators only the path gets a trailing separator, proved)"
  },
  {
   "property": "C44",
   "status": "partial",
   "theorems": [
    "Verif.Prefs.Props.save_load_partial",
    "Verif.Prefs.Props.pairs_survive_partial",
    "Verif.Prefs.Props.backslash_n_grows",
    "Verif.Prefs.Props.file_loses",
    "Verif.Prefs.Props.reload_reads_behind"
   ],
   "note": "proved for keys and values without the characters the format cannot represent (line breaks, the pair backslash-n, outer white space, = in keys); counterexamples proved for the others"
  },
  {
   "property": "C45",
   "status": "partial",
   "theorems": [
    "Verif.Inflate.codes_canonical",
    "Verif.Inflate.codes_prefix_free",
    "Verif.Inflate.tree_decodes_partial",
    "Verif.Inflate.incomplete_code_lost",
    "Verif.Inflate.empty_code_ub",
    "Verif.Inflate.bubble_sorts",
    "Verif.Inflate.equal_codes_found"
   ],
   "note": "canonical codes for all code lengths within Kraft's inequality; decoding for complete codes and for a single one-bit code; in incomplete codes words are lost, an empty code is undefined behaviour (both proved) Two equal codes of one level are found, whatever the order of the nodes."
  },
  {
   "property": "C46",
   "status": "partial",
   "theorems": [
    "Verif.Inflate.inflate_wraps",
    "Verif.Inflate.inflate_decodes_partial",
    "Verif.Inflate.inflate_zlib_partial",
    "Verif.Inflate.header_rejects",
    "Verif.Inflate.checksum_ignored",
    "Verif.Inflate.far_copy_wrong",
    "Verif.Inflate.no_distances_ub",
    "Verif.Inflate.crossing_repeat_throws",
    "Verif.Inflate.default_constructor_ub",
    "Verif.Inflate.invalid_not_detected"
   ],
   "note": "all valid streams except: far copies in fixed blocks (wrong data), blocks without distance codes (UB), repetitions across the alphabets (thrown)"
  },
  {
   "property": "C47",
   "status": "partial",
   "theorems": [
    "Verif.Zip.reads_archive_partial",
    "Verif.Zip.entry_finds_partial",
    "Verif.Zip.leading_end_record_missed",
    "Verif.Zip.short_file_rounds",
    "Verif.Zip.garbage_accepted",
    "Verif.Zip.binary_extra_ub",
    "Verif.Zip.short_directory_ub",
    "Verif.Zip.stored_overflow_ub",
    "Verif.Zip.unknown_method_ub",
    "Verif.Zip.short_entry_leaks",
    "Verif.Zip.crc_not_checked"
   ],
   "note": "reads_archive_partial: every archive in the sense of Zip/Spec.lean (records of the format at any places, stored and deflated members, archive comment) opens with the right names, sizes and contents; entry_finds_partial: entry(name) is the first member of that name. Missing because false: binary extra fields, an end record at the beginning with a comment, the deflate streams of inflate_decodes_partial; damaged archives are not rejected but accepted or read out of bounds"
  },
  {
   "property": "C48",
   "status": "proved",
   "theorems": [
    "Verif.Undo.Props.setMember_spec",
    "Verif.Undo.Props.setMemberRange_spec",
    "Verif.Undo.Props.setMemberDouble_spec"
   ],
   "note": ""
  },
  {
   "property": "C49",
   "status": "partial",
   "theorems": [
    "Verif.Arrays.Props.bytearray_history_partial",
    "Verif.Arrays.Props.bytearray_progress",
    "Verif.Arrays.Props.resize_grow",
    "Verif.Arrays.Props.resize_stale",
    "Verif.Arrays.Props.terminator",
    "Verif.Arrays.Props.terminator_lost",
    "Verif.Arrays.Props.get_unchecked",
    "Verif.Arrays.Props.replaceRange_partial",
    "Verif.Arrays.Props.replaceRange_ignores_offset",
    "Verif.Arrays.Props.copy_of_null",
    "Verif.Arrays.Props.replaceSelf_eq",
    "Verif.Arrays.Props.replaceRange_exact",
    "Verif.Arrays.Props.replaceRange_right_iff",
    "Verif.Arrays.Props.init_sized",
    "Verif.Arrays.Props.init_terminated"
   ],
   "note": "Growing a shrunk array brings back old bytes, the terminating NUL is lost by resize, get is unchecked, the replace offset is ignored (all proved). The constructors with a buffer succeed exactly if the bytes exist, and append a 0."
  },
  {
   "property": "C50",
   "status": "partial",
   "theorems": [
    "Verif.Str.ArgProps.arg_spec_partial",
    "Verif.Str.ArgProps.argInt_spec",
    "Verif.Str.ArgProps.arg_no_percent",
    "Verif.Str.ArgProps.arg_no_placeholder",
    "Verif.Str.ArgProps.arg_percent_sign",
    "Verif.Str.ArgProps.arg_leading_zero",
    "Verif.Str.ArgProps.arg_chain"
   ],
   "note": "Placeholders written with a leading zero are excluded (arg_leading_zero). If there is a percent sign but no placeholder, the value is put in front of the text (arg_no_placeholder); text inserted by one call is replaced by the next (arg_chain)."
  },
  {
   "property": "C51",
   "status": "partial",
   "theorems": [
    "Verif.Geo.extents_smallest_box",
    "Verif.Geo.extents_order",
    "Verif.Geo.far_point_lost",
    "Verif.Geo.flat_extents_spoil_z",
    "Verif.Geo.union_contains_partial",
    "Verif.Geo.intersect_exact_partial",
    "Verif.Geo.intersection_exact_partial",
    "Verif.Geo.intersection_disjoint",
    "Verif.Geo.intersects_symm",
    "Verif.Geo.intersects_iff",
    "Verif.Geo.normalize_partial",
    "Verif.Geo.set_edges_partial",
    "Verif.Geo.onGrid_int",
    "Verif.Geo.union_loses_point",
    "Verif.Geo.intersect_exceeds",
    "Verif.Geo.intersection_exceeds",
    "Verif.Geo.setLeft_inexact",
    "Verif.Geo.Near.set_edges_near",
    "Verif.Geo.Near.union_near",
    "Verif.Geo.Near.union_covers",
    "Verif.Geo.Near.intersect_near",
    "Verif.Geo.Near.intersection_near",
    "Verif.Geo.Near.normalize_near",
    "Verif.Geo.common_point_intersects",
    "Verif.Geo.intersection_exact_iff",
    "Verif.Geo.disjoint_points"
   ],
   "note": "In IEEE double arithmetic. Extents: proved for all histories with coordinates within +-1E90 and x below 1E89 (violations outside are proved). Rect: exact on every common binary grid (integers up to 2^49 included); because edges are stored as origin plus size, rounding violates the claim for other doubles (witnesses proved); disjoint rectangles 'intersect' in the point (0,0). For all finite rectangles with numbers up to 2^n (n from -1020 to 1000) the edges are right up to a few parts in 2^49 of that bound, so that the violations by rounding are at most that large (namespace Verif.Geo.Near). Rectangles with a common point intersect, for all doubles; intersection consists of the common points exactly if they intersect."
  },
  {
   "property": "C52",
   "status": "partial",
   "theorems": [
    "Verif.Lists.StringListProps.list_history_partial",
    "Verif.Lists.StringListProps.list_history_sized_partial",
    "Verif.Lists.StringListProps.append_own_element",
    "Verif.Lists.StringListProps.append_own_reads_freed",
    "Verif.Lists.StringListProps.remove_own_first",
    "Verif.Lists.StringListProps.split_join",
    "Verif.Lists.StringListProps.split_parts_free"
   ],
   "note": "Arguments that are references into the list itself break it: append(list[i]) reads freed memory when the block is full, remove(list[0]) empties the list (both proved)."
  },
  {
   "property": "C53",
   "status": "proved",
   "theorems": [
    "Verif.CRC.crc8_detects_bit_burst",
    "Verif.CRC.crc8_detects_burst",
    "Verif.CRC.crc8_detects_bit",
    "Verif.CRC.crc8_misses_high_first"
   ],
   "note": "For the bits of each byte taken from the lowest to the highest, the order of this reflected CRC; in the opposite order bursts of 11 bits are missed (crc8_misses_high_first)."
  },
  {
   "property": "C54",
   "status": "partial",
   "theorems": [
    "Verif.Math.swap_partial",
    "Verif.Math.swap_self_zeroes"
   ],
   "note": "Swapping an object with itself zeroes it (proved violation)."
  },
  {
   "property": "C55",
   "status": "partial",
   "theorems": [
    "Verif.Math.Fl.tolerance_fp_partial",
    "Verif.Math.Fl.isEqual_symm",
    "Verif.Math.Fl.isEqual_refl",
    "Verif.Math.Fl.isEqual_refl_special",
    "Verif.Math.Fl.isNotEqual_not",
    "Verif.Math.Fl.isGreater_swap",
    "Verif.Math.Fl.isLessEqual_not_greater",
    "Verif.Math.Fl.nan_comparisons",
    "Verif.Math.Fl.tolerance_overlap",
    "Verif.Math.Fl.large_less_itself",
    "Verif.Math.tolerance_trichotomy_partial",
    "Verif.Math.isEqual_not_transitive",
    "Verif.Math.Fl.isGreaterEqual_fp_partial",
    "Verif.Math.Fl.isNaN_iff",
    "Verif.Math.Fl.less_itself_iff",
    "Verif.Math.Fl.itself_only_equal",
    "Verif.Math.Fl.tolerance_total",
    "Verif.Math.Fl.tolerance_gap"
   ],
   "note": "IEEE doubles (Verif/Fp). Exactly one of the three holds for differences of at least 1e-6 and, below 2^29, of at most 9e-7; in between two may hold, and every number from 2^34 on is less than itself (both proved). In exact arithmetic exactly one holds always. The remaining comparisons for doubles. Exactly the finite doubles from 2^34 on and those below -2^34 are less (and greater) than themselves. At least one of the three holds if each number is zero or at least 2^-20 in magnitude; for tiny numbers possibly none (tolerance_gap)."
  },
  {
   "property": "C56",
   "status": "partial",
   "theorems": [
    "Verif.Math.Fl.round_fp_partial",
    "Verif.Math.Fl.round_half_below",
    "Verif.Math.Fl.round_odd",
    "Verif.Math.Fl.round_ub",
    "Verif.Math.Fl.sign_fp",
    "Verif.Math.Fl.interpolate_fp_partial",
    "Verif.Math.Fl.interpolate_end",
    "Verif.Math.Fl.probability_bounds",
    "Verif.Math.round_partial",
    "Verif.Math.interpolate_partial",
    "Verif.Math.random_in_range",
    "Verif.Math.random_defined",
    "Verif.Math.random_overflow",
    "Verif.Math.Fl.interpolateRange_fp_partial",
    "Verif.Math.Single.interpolate_partial",
    "Verif.Math.Single.interpolate_end",
    "Verif.Math.Fl.random01_range",
    "Verif.Math.Fl.random01_every",
    "Verif.Math.Fl.random01Win_range",
    "Verif.Math.Fl.random01Win_one",
    "Verif.Math.Fl.probability_threshold",
    "Verif.Math.Fl.probability_ub",
    "Verif.Math.Fl.interpolate_error",
    "Verif.Math.Fl.interpolate_range",
    "Verif.Math.Fl.interpolateRange_range"
   ],
   "note": "IEEE doubles (Verif/Fp). round is right for every double of int64 range except 0.49999999999999994 and the odd integers between 2^52 and 2^53; interpolation is monotone and starts at its begin value, the end value is not exact. The same functions in exact arithmetic. Interpolation between two positions for doubles. Interpolation for float. random() without bounds: at least 0 and less than 1 on Linux and macOS (erand48 as POSIX specifies it), every multiple of 2^-48 from exactly one state; on Windows 1 is included. probability(p) is true for t+1 of the 10001 random numbers, t the whole part of 10000 p up to a rounding. Interpolation of doubles is exact up to three roundings, at the end up to two, and leaves the range by no more."
  },
  {
   "property": "C57",
   "status": "partial",
   "theorems": [
    "Verif.Str.ArgProps.compareFancy_spec",
    "Verif.Str.ArgProps.compareFancy_preorder",
    "Verif.Str.ArgProps.compareFancy_confuses"
   ],
   "note": "A total preorder; digit runs are compared modulo 2^32 and a digit run equals the letter with that code (proved)."
  },
  {
   "property": "C58",
   "status": "proved",
   "theorems": [
    "Verif.Arrays.Props.array_get_set",
    "Verif.Arrays.Props.array_copy"
   ],
   "note": ""
  },
  {
   "property": "C59",
   "status": "proved",
   "theorems": [
    "Verif.Date.Props.toString_iso",
    "Verif.Date.Props.toString_injective",
    "Verif.Date.Props.compareTo_order",
    "Verif.Date.Props.empty_date_overflows"
   ],
   "note": ""
  },
  {
   "property": "C60",
   "status": "proved",
   "theorems": [
    "Verif.Undo.Props.undo_notifies",
    "Verif.Undo.Props.redo_notifies",
    "Verif.Undo.Props.step_owners",
    "Verif.Undo.Props.close_notifies"
   ],
   "note": ""
  },
  {
   "property": "C61",
   "status": "partial",
   "theorems": [
    "Verif.RefCount.no_deadlock_partial",
    "Verif.RefCount.drain_self_lock"
   ],
   "note": "some thread can always go on except when a destructor run by drain uses the pool: that call never returns (proved)"
  },
  {
   "property": "C62",
   "status": "partial",
   "theorems": [
    "Verif.RefCount.highBit_sequential",
    "Verif.RefCount.highBit_race"
   ],
   "note": "without a concurrent call the count is kept; setHighBit takes no lock, so a concurrent retain can be lost (proved)"
  },
  {
   "property": "C63",
   "status": "proved",
   "theorems": [
    "Verif.Path.compareTo_before",
    "Verif.Path.compareTo_order"
   ],
   "note": "isDirectory is an arbitrary function of the path that does not change during the comparison"
  },
  {
   "property": "C64",
   "status": "partial",
   "theorems": [
    "Verif.Path.readFully_spec",
    "Verif.Path.readFully_schedule",
    "Verif.Path.readFully_overrun"
   ],
   "note": "for buffers with room for the requested number of bytes; a smaller buffer is overrun (proved); stated as partial because the API does not check it"
  },
  {
   "property": "C65",
   "status": "partial",
   "theorems": [
    "Verif.Path.lastModified_partial",
    "Verif.Path.lastModified_wrong",
    "Verif.Path.lastModified_example",
    "Verif.Path.lastModified_not_monotone"
   ],
   "note": "right only when the nanoseconds are below 1000; wrong for every other fraction (proved)"
  },
  {
   "property": "C66",
   "status": "partial",
   "theorems": [
    "Verif.Prefs.Props.history_partial",
    "Verif.Prefs.Props.destructor_frees_all",
    "Verif.Prefs.Props.int_roundtrip_partial",
    "Verif.Prefs.Props.bool_roundtrip",
    "Verif.Prefs.Props.double_roundtrip_partial",
    "Verif.Prefs.Props.typed_default",
    "Verif.Prefs.Props.double_default",
    "Verif.Prefs.Props.double_of_text",
    "Verif.Prefs.Props.int_default_on_text",
    "Verif.Prefs.Props.line_break_not_restored",
    "Verif.Prefs.Props.setValue_cr_reads_behind",
    "Verif.Prefs.Props.setInt_min"
   ],
   "note": "values with line breaks come back changed, a value ending with CR may be read behind its end, the smallest integer overflows (proved); doubles keep ten digits (double_roundtrip_partial), and valueDouble yields 0 instead of the default for text that is no number (double_of_text)"
  },
  {
   "property": "C67",
   "status": "proved",
   "theorems": [
    "Verif.Zip.crc32_remainder",
    "Verif.Zip.crc32_collides_iff",
    "Verif.Zip.crc32_detects_burst"
   ],
   "note": "the CRC as a remainder of polynomials over ZMod 2"
  },
  {
   "property": "C68",
   "status": "partial",
   "theorems": [
    "Verif.Zip.session_writes_archive",
    "Verif.Zip.session_roundtrip",
    "Verif.Zip.overwrite_keeps_tail",
    "Verif.Zip.overwrite_reads_old_directory",
    "Verif.Zip.overwrite_example",
    "Verif.Zip.many_entries_lost"
   ],
   "note": "session_writes_archive, session_roundtrip: full claim for new files, empty files and files that are not longer than the archive, below 65536 entries and 4 GiB; overwrite_reads_old_directory, many_entries_lost: violations otherwise"
  },
  {
   "property": "C69",
   "status": "partial",
   "theorems": [
    "Verif.Color.constructors",
    "Verif.Color.setters",
    "Verif.Color.eq_iff",
    "Verif.Color.add_sub",
    "Verif.Color.toRgb_grey",
    "Verif.Color.toRgb_cmyk",
    "Verif.Color.toRgb_idem",
    "Verif.Color.isWhite_iff",
    "Verif.Color.grey_cmyk_rgb",
    "Verif.Color.toCmyk_idem",
    "Verif.Color.rgb_to_cmyk_partial",
    "Verif.Color.black_to_cmyk",
    "Verif.Color.rgb_cmyk_rgb_differs",
    "Verif.Color.toGreyScale_white",
    "Verif.Color.toGreyScale_cases",
    "Verif.Color.toGreyScale_idem"
   ],
   "note": "RGB black cannot be converted to CMYK (0/0, undefined behaviour: black_to_cmyk); toGreyScale turns every colour into white or is undefined behaviour (toGreyScale_white); RGB to CMYK proved for every other colour"
  },
  {
   "property": "C70",
   "status": "partial",
   "theorems": [
    "Verif.Color.blend_opaque",
    "Verif.Color.blend_alpha",
    "Verif.Color.pdColour_opaque",
    "Verif.Color.blend_onto_opaque",
    "Verif.Color.blend_transparent",
    "Verif.Color.blend_translucent_partial",
    "Verif.Color.blend_dark",
    "Verif.Color.blend_whole_alpha",
    "Verif.Color.blend_overflow",
    "Verif.Color.blend_invisible",
    "Verif.Color.blend_nothing",
    "Verif.Color.blend_cover",
    "Verif.Color.blend_nothing_darkens",
    "Verif.Color.blend_transparent_ub",
    "Verif.Color.blend_grey",
    "Verif.Color.interpolate_spec"
   ],
   "note": "All alphas are covered. Because the alpha is rounded down before the division, bright translucent colours leave the range of a byte: undefined behaviour (blend_overflow for all such pairs, blend_transparent_ub); a transparent foreground can darken a translucent background by one (blend_nothing_darkens); both fully transparent is undefined behaviour (blend_invisible); grey and CMYK colours are blended as if they were RGB (blend_grey)"
  },
  {
   "property": "C71",
   "status": "proved",
   "theorems": [
    "Verif.Color.hsvModel_spec",
    "Verif.Color.fromHsv_spec",
    "Verif.Color.hsv_round_trip",
    "Verif.Color.hsv_round_trip_differs",
    "Verif.Color.fromHsv_outside"
   ],
   "note": "single precision IEEE arithmetic (Verif/Fp32); exactHue, exactSat, lossR, lossG, lossB are the specification; one less does occur (hsv_round_trip_differs)"
  },
  {
   "property": "C72",
   "status": "partial",
   "theorems": [
    "Verif.Mx.Mat.new_spec",
    "Verif.Mx.Mat.ofVertices_spec",
    "Verif.Mx.Mat.ofValue_spec",
    "Verif.Mx.Mat.copy_spec",
    "Verif.Mx.Mat.set_spec",
    "Verif.Mx.Mat.get_alias",
    "Verif.Mx.Mat.get_outside",
    "Verif.Mx.Mat.zeros_spec",
    "Verif.Mx.Mat.diag_spec",
    "Verif.Mx.Mat.transpose_spec",
    "Verif.Mx.Mat.transpose_transpose",
    "Verif.Mx.Mat.insert_spec",
    "Verif.Mx.Mat.insertAt_spec",
    "Verif.Mx.Mat.insertAt_negative",
    "Verif.Mx.Mat.mapLoop_spec",
    "Verif.Mx.Mat.smul_spec",
    "Verif.Mx.Mat.add_square_partial",
    "Verif.Mx.Mat.add_rectangular",
    "Verif.Mx.Mat.add_mismatched",
    "Verif.Mx.Mat.mul_spec",
    "Verif.Mx.Mat.mul_rejects",
    "Verif.Mx.Mat.mulVec_spec",
    "Verif.Mx.Mat.add_all"
   ],
   "note": "operator+ and operator- are right for square matrices only: equal rectangular sizes are rejected (add_rectangular), some unequal sizes accepted or read out of bounds (add_mismatched); indices outside are not rejected (get_alias, get_outside, insertAt_negative) Sum and difference for all sizes (add_all): refused, undefined or computed from cells that do not correspond, except for square matrices of one size."
  },
  {
   "property": "C73",
   "status": "partial",
   "theorems": [
    "Verif.Mx.Mat.mul_matrix",
    "Verif.Mx.Mat.transpose_matrix",
    "Verif.Mx.Mat.add_matrix_partial",
    "Verif.Mx.Mat.smul_matrix",
    "Verif.Mx.Mat.mul_assoc_matrix",
    "Verif.Mx.Mat.trace_spec",
    "Verif.Mx.Mat.trace_square",
    "Verif.Mx.Mat.norm1_spec",
    "Verif.Mx.Mat.normInf_spec",
    "Verif.Mx.Mat.det_spec",
    "Verif.Mx.Mat.det_inverse_reject",
    "Verif.Mx.Mat.inverse_spec",
    "Verif.Mx.Mat.inverse_singular",
    "Verif.Mx.Mat.inverse_singular_double",
    "Verif.Mx.Mat.det_double_cancels",
    "Verif.Mx.Mat.nonZeroElementCount_spec"
   ],
   "note": "inverse of a singular matrix reports eOK and holds no numbers (inverse_singular); exact arithmetic, rounding of doubles is only shown by det_double_cancels"
  },
  {
   "property": "C74",
   "status": "proved",
   "theorems": [
    "Verif.Mx.Mat.trans_spec",
    "Verif.Mx.Mat.trans_rejects",
    "Verif.Mx.Mat.trans_identity",
    "Verif.Mx.Mat.trans_moving",
    "Verif.Mx.Mat.trans_scaling",
    "Verif.Mx.Mat.trans_scalingAt",
    "Verif.Mx.Mat.trans_mirroring",
    "Verif.Mx.Mat.mirroring_reflection",
    "Verif.Mx.Mat.mirroring_needs_unit",
    "Verif.Mx.Mat.rotation_spec",
    "Verif.Mx.Mat.rodrigues_rotation",
    "Verif.Mx.Mat.rotationXYZ",
    "Verif.Mx.Mat.trans_rotationAt",
    "Verif.Mx.Mat.trans_rotationZ4",
    "Verif.Mx.Mat.lastRow_all",
    "Verif.Mx.Mat.trans_mul"
   ],
   "note": "exact arithmetic with exact sine and cosine"
  },
  {
   "property": "C75",
   "status": "partial",
   "theorems": [
    "Verif.Vtx.crossProduct_spec",
    "Verif.Vtx.over_spec",
    "Verif.Vtx.abs_spec",
    "Verif.Vtx.dot_bound",
    "Verif.Vtx.normalized_spec",
    "Verif.Vtx.angleTo_spec",
    "Verif.Vtx.tests_spec",
    "Verif.Vtx.tests_depend_on_length",
    "Verif.Vtx.biggest_spec",
    "Verif.Vtx.biggest_tie",
    "Verif.Vtx.rotate_spec",
    "Verif.Vtx.eq_spec",
    "Verif.Vtx.eq_not_transitive",
    "Verif.Vtx.isLinearIndependent_spec",
    "Verif.Vtx.MeasureProps.isValid_spec",
    "Verif.Vtx.MeasureProps.isValid_fp",
    "Verif.Vtx.MeasureProps.scale_spec"
   ],
   "note": "normalized leaves vectors shorter than 1E-6 alone; biggest returns z when x = y even if z is smaller (biggest_tie); == is not transitive; exact arithmetic"
  },
  {
   "property": "C76",
   "status": "partial",
   "theorems": [
    "Verif.Vtx.over2_spec",
    "Verif.Vtx.P2.normalized_spec",
    "Verif.Vtx.P2.rotated_spec",
    "Verif.Vtx.P2.angleTo_spec",
    "Verif.Vtx.P2.isRightTo_spec",
    "Verif.Vtx.P2.tests_spec",
    "Verif.Vtx.P2.solveLinearSystem_partial",
    "Verif.Vtx.P2.solveLinearSystem_pivot",
    "Verif.Vtx.MeasureProps.isValid2_spec",
    "Verif.Vtx.MeasureProps.isValid2_fp",
    "Verif.Vtx.MeasureProps.scale2_spec",
    "Verif.Vtx.P2.solveLinearSystem_iff"
   ],
   "note": "solveLinearSystem fails for a regular system whose pivot is below 1E-6 (solveLinearSystem_pivot); exact arithmetic solveLinearSystem has a result exactly if determinant and pivot are not 0 (solveLinearSystem_iff)."
  },
  {
   "property": "C77",
   "status": "partial",
   "theorems": [
    "Verif.Vtx.halfTurn_spec",
    "Verif.Vtx.rotationUV_partial",
    "Verif.Vtx.rotationUV_short",
    "Verif.Vtx.rotationUV_opposite",
    "Verif.Vtx.ocs_axes",
    "Verif.Vtx.ocs_spec",
    "Verif.Vtx.MeasureProps.initWcs_spec",
    "Verif.Vtx.rotationUV_almost_opposite",
    "Verif.Vtx.rotationUV_short_iff"
   ],
   "note": "the rotation between short or almost opposite vectors is none (rotationUV_short, rotationUV_opposite); object coordinates are proved for every unit vector; exact arithmetic The remaining cases of rotationUV exactly: almost opposite vectors and vectors with a cross product below 10^-6 are right exactly if they are parallel (rotationUV_almost_opposite, rotationUV_short_iff)."
  },
  {
   "property": "C78",
   "status": "partial",
   "theorems": [
    "Verif.Mx.Mat.Eigenvalues.mem",
    "Verif.Mx.Mat.eigen_one",
    "Verif.Mx.Mat.eigen_two",
    "Verif.Mx.Mat.eigen_two_symmetric",
    "Verif.Mx.Mat.eigen_three_partial",
    "Verif.Mx.Mat.eigen_three_triangular",
    "Verif.Mx.Mat.eigen_unsymmetric",
    "Verif.Mx.Mat.eigen_rejects"
   ],
   "note": "One and two rows: proved in full. Three rows: proved for symmetric and for lower triangular matrices; for other matrices the claim is false (eigen_unsymmetric: eigenvalues 1, 2, 3, answer 2+sqrt 2, 2, 2-sqrt 2). Exact real arithmetic."
  },
  {
   "property": "C79",
   "status": "partial",
   "theorems": [
    "Verif.Geom.linePlane_partial",
    "Verif.Geom.linePlane_invalid",
    "Verif.Geom.linePlane_small",
    "Verif.Geom.closestPointOnPlane_partial",
    "Verif.Geom.closestPointOnPlane_short",
    "Verif.Geom.closestPointOnLine_partial",
    "Verif.Geom.closestPointSegment_partial",
    "Verif.Geom.segment_distance_nan",
    "Verif.Geom.distancePointToPoint_spec",
    "Verif.Geom.isSamePoint_spec",
    "Verif.Geom.isPointOnLine_partial",
    "Verif.Geom.isPointOnPlane_spec",
    "Verif.Geom.isPointOnPlane_default",
    "Verif.Geom.closestPointOnLine_short",
    "Verif.Geom.closestPointSegment_short",
    "Verif.Geom.isPointOnLine_iff",
    "Verif.Geom.isPointOnPlane_iff",
    "Verif.Geom.isPointOnSegment_iff"
   ],
   "note": "Proved for vectors above the tolerance of the library; the claim is false below it (linePlane_small, closestPointOnPlane_short), for points whose foot is outside a segment (segment_distance_nan) and for isPointOnPlane with its default tolerance, which is always false (isPointOnPlane_default). Exact real arithmetic. The three point tests are characterised for all vectors: true exactly if the direction is at least 10^-3 long and the point is closer than 10^-6 to the object (segment: the foot lies between the ends up to the tolerance)."
  },
  {
   "property": "C80",
   "status": "partial",
   "theorems": [
    "Verif.Geom.closestPointLines_partial",
    "Verif.Geom.usable_unit",
    "Verif.Geom.distanceLineToLine_skew_partial",
    "Verif.Geom.distanceLineToLine_parallel",
    "Verif.Geom.distanceLineToLine_gap",
    "Verif.Geom.distanceLineToLine_almost_parallel",
    "Verif.Geom.intersectionPoint3_partial",
    "Verif.Geom.intersectionPoint3_parallel",
    "Verif.Geom.distanceLineToLine_parallel_all",
    "Verif.Geom.distanceLineToLine_unusable",
    "Verif.Geom.distanceLineToLine_nan_iff"
   ],
   "note": "Proved if the sine of the angle is at least 1/1000 (unit directions) or 0; false between (distanceLineToLine_gap: NaN; distanceLineToLine_almost_parallel: a wrong distance). Exact real arithmetic. All pairs of directions are covered: the three cases parallel, usable and neither are exhaustive, and the distance is not a number exactly for the last and for a null first direction counted as parallel."
  },
  {
   "property": "C81",
   "status": "partial",
   "theorems": [
    "Verif.Geom.distancePointToPoint2_spec",
    "Verif.Geom.closestPointOnLine2_partial",
    "Verif.Geom.closestPointOnLine2_short",
    "Verif.Geom.intersectionPoint2_partial",
    "Verif.Geom.intersectionPoint2_parallel",
    "Verif.Geom.crosses_partial",
    "Verif.Geom.crosses_overlap",
    "Verif.Geom.crosses_pivot",
    "Verif.Geom.extensionPointOnLine_partial",
    "Verif.Geom.closestPointOnLine2_short_iff",
    "Verif.Geom.intersectionPoint2_iff",
    "Verif.Geom.intersectionPoint2_invalid",
    "Verif.Geom.crosses_iff",
    "Verif.Geom.crosses_order",
    "Verif.Geom.extensionPointOnLine_flat",
    "Verif.Geom.extensionPointOnLine_short"
   ],
   "note": "Proved for vectors above the tolerance; segments that overlap do not cross (crosses_overlap), and a short segment crosses segments that are far away (crosses_pivot). Exact real arithmetic. Shorter directions: right exactly if the point lies on the perpendicular through the given point of the line (closestPointOnLine2_short_iff). intersectionPoint2 and crosses are characterised for all arguments (intersectionPoint2_iff, crosses_iff); crosses is not symmetric (crosses_order); a ray with a direction shorter than 10^-6 meets no segment."
  },
  {
   "property": "C82",
   "status": "partial",
   "theorems": [
    "Verif.Geom.intersectionPointsOfCircles_spec",
    "Verif.Geom.circleParameterBy3Points_spec",
    "Verif.Geom.circleParameterBy3Points_collinear",
    "Verif.Geom.closestPointOnCircle_partial",
    "Verif.Geom.closestPointOnCircle_axis",
    "Verif.Geom.closestPointOnCircle_small",
    "Verif.Geom.angleBisector_partial",
    "Verif.Geom.angleBisector2_partial",
    "Verif.Geom.circleParameterBy2TangentsRadius_partial",
    "Verif.Geom.circleParameterBy2TangentsRadius_parallel",
    "Verif.Geom.circleInto_other",
    "Verif.Geom.circleInto_first",
    "Verif.Geom.closestPointOnCircle_short_normal",
    "Verif.Geom.angleBisector_short",
    "Verif.Geom.angleBisector_short_both",
    "Verif.Geom.angleBisector2_short",
    "Verif.Geom.closestPointOnCircle_negative",
    "Verif.Geom.isPointOnCircle_iff"
   ],
   "note": "The intersection of two circles and the circle through three points are proved in full; the others above the tolerance of the library, with witnesses below it. Exact real arithmetic. With the first point as the variable for the centre the radius is always zero. Normals shorter than 10^-3: never a closest point (closestPointOnCircle_short_normal). Bisector of short vectors: right exactly if both point in the same direction, or both are short and equally long (angleBisector_short, angleBisector_short_both, angleBisector2_short). Negative radii: the farthest point instead of the closest (closestPointOnCircle_negative). The test for points of a circle is characterised for all arguments."
  },
  {
   "property": "C83",
   "status": "partial",
   "theorems": [
    "Verif.Geom.checkAngle_partial",
    "Verif.Geom.checkAngle_wrong",
    "Verif.Geom.pqCheck_spec",
    "Verif.Geom.extensionPointOnArc_partial",
    "Verif.Geom.extensionPointOnArc_touch",
    "Verif.Geom.extensionPointOnEllipse_partial",
    "Verif.Geom.extensionPointOnEllipse_minor",
    "Verif.Geom.extensionPointOnEllipse_turned",
    "Verif.Geom.checkAngle_endless"
   ],
   "note": "checkAngle is wrong for a start below -pi (checkAngle_wrong) and does not end for the double 10^300 (checkAngle_endless); a ray that only just misses an arc is answered with a point near it (extensionPointOnArc_touch), and ellipses are only right if the minor half axis is 1 and centre and main axis are along x (extensionPointOnEllipse_minor, extensionPointOnEllipse_turned). Exact real arithmetic apart from checkAngle_endless."
  },
  {
   "property": "C84",
   "status": "partial",
   "theorems": [
    "Verif.Nurbs.point_partial",
    "Verif.Nurbs.basis_unique",
    "Verif.Nurbs.isBasis",
    "Verif.Nurbs.point_hull_partial",
    "Verif.Nurbs.point_affine_partial",
    "Verif.Nurbs.point_equal_weights_partial",
    "Verif.Nurbs.point_start_partial",
    "Verif.Nurbs.point_bezier",
    "Verif.Nurbs.point_outside",
    "Verif.Nurbs.end_spec",
    "Verif.Nurbs.point_end",
    "Verif.Nurbs.start_spec",
    "Verif.Nurbs.start_outside",
    "Verif.Nurbs.knot_spec",
    "Verif.Nurbs.create_spec",
    "Verif.Nurbs.point_ub",
    "Verif.Nurbs.point_close_knots"
   ],
   "note": "Proved for t from knot number degree up to, without, knot number n, and knots that are equal or at least 1E-6 apart. False at the parameter end() of every curve: 0/0 (point_end); false for closer knots (point_close_knots); too few knots or weights are read behind the block (point_ub). Exact real arithmetic."
  },
  {
   "property": "C85",
   "status": "partial",
   "theorems": [
    "Verif.DateFmt.format_partial",
    "Verif.DateFmt.format_exact",
    "Verif.DateFmt.decompose",
    "Verif.DateFmt.format_total",
    "Verif.DateFmt.quoted_text",
    "Verif.DateFmt.run_before_text",
    "Verif.DateFmt.iso_pattern",
    "Verif.DateFmt.long_run",
    "Verif.DateFmt.september",
    "Verif.DateFmt.open_quote",
    "Verif.DateFmt.open_quote_run",
    "Verif.DateFmt.other_letters",
    "Verif.DateFmt.weekday_missing",
    "Verif.DateFmt.shows_exists"
   ],
   "note": "Proved for closed apostrophes, runs of up to 255 letters that do not stand directly before an apostrophe, years from 0, days from the end of 1969. False: a run directly before a text in apostrophes is copied (run_before_text, iso_pattern), 256 letters and more are counted modulo 256 (long_run), the long name of September is misspelt (september), weekdays before 1970 are missing (weekday_missing), the other documented letters are copied (other_letters), an open apostrophe turns the text into a run (open_quote, open_quote_run). format_exact says what the code does for every pattern with closed apostrophes."
  },
  {
   "property": "C86",
   "status": "partial",
   "theorems": [
    "Verif.I18n.translate_partial",
    "Verif.I18n.translate_exact",
    "Verif.I18n.appendMo_ok",
    "Verif.I18n.line_break",
    "Verif.I18n.other_file",
    "Verif.I18n.short_file",
    "Verif.I18n.table_outside",
    "Verif.I18n.sample_ok"
   ],
   "note": "Proved for catalogues with texts up to U+FFFF without NUL (no plural forms) whose translations have no line breaks. False: a line break becomes a backslash and an n (line_break), short or damaged files are read behind their end (short_file, table_outside). translate_exact says what the code does for texts with line breaks too."
  },
  {
   "property": "C87",
   "status": "proved",
   "theorems": [
    "Verif.I18n.transFile_spec",
    "Verif.I18n.transFile_sample",
    "Verif.I18n.fallback_sample"
   ],
   "note": "On systems with the slash as separator."
  },
  {
   "property": "C88",
   "status": "partial",
   "theorems": [
    "Verif.Guess.guess_exact",
    "Verif.Guess.guess_marked",
    "Verif.Guess.guess_utf16",
    "Verif.Guess.guess_ascii",
    "Verif.Guess.guess_default_partial",
    "Verif.Guess.never_default",
    "Verif.Guess.empty_stream",
    "Verif.Guess.single_byte",
    "Verif.Guess.utf8_misread",
    "Verif.Guess.default_sample",
    "Verif.Guess.default_systems",
    "Verif.Guess.guess_all",
    "Verif.Guess.guess_ub_iff",
    "Verif.Guess.guess_no_other_error"
   ],
   "note": "Proved for streams of three and more bytes where char is unsigned. False where char is signed (x86, Apple): no byte is greater than 0x7F, so everything without a mark is ASCII (never_default, utf8_misread). Streams of no byte, or of a part of a mark, are read behind the end (empty_stream). The floating point comparison is proved exact (many1_iff, many2_iff). The result is given for every stream; bytes behind the end are read for exactly five streams (guess_ub_iff)."
  },
  {
   "property": "C89",
   "status": "partial",
   "theorems": [
    "Verif.Guess.forName_spec",
    "Verif.Guess.table_names",
    "Verif.Guess.forName_utf16",
    "Verif.Guess.guess_known",
    "Verif.Guess.forName_find",
    "Verif.Guess.alternatives_uninitialised"
   ],
   "note": "forName is proved for the built in character sets. A character set with alternative names is built with an uninitialised count: alternatives_uninitialised."
  },
  {
   "property": "C90",
   "status": "proved",
   "theorems": [
    "Verif.Property.number_last",
    "Verif.Property.text_last",
    "Verif.Property.fresh",
    "Verif.Property.is_iff",
    "Verif.Property.bool_of_number",
    "Verif.Property.bool_of_two",
    "Verif.Property.variant_copy",
    "Verif.Property.variant_make",
    "Verif.Property.variant_stale"
   ],
   "note": "Reading a truth value from a property that holds another number is undefined (bool_of_number). A variant keeps its old text when a number is assigned (variant_stale)."
  },
  {
   "property": "C91",
   "status": "partial",
   "theorems": [
    "Verif.Property.valueEquals_iff",
    "Verif.Property.toF64_bits",
    "Verif.Property.valueEquals_equivalence",
    "Verif.Property.setValue_equal",
    "Verif.Property.same_calls",
    "Verif.Property.bool_history",
    "Verif.Property.number_history",
    "Verif.Property.equals_partial",
    "Verif.Property.equals_value",
    "Verif.Property.equals_refl_partial",
    "Verif.Property.equals_symm_partial",
    "Verif.Property.unknown_editor",
    "Verif.Property.new_not_equal",
    "Verif.Property.equals_asymmetric",
    "Verif.Property.nan_not_equal",
    "Verif.Property.checkbox_sample"
   ],
   "note": "isValueEquals compares text and all bits: equal truth values with another history differ (bool_history, number_history). operator== is proved for the known editors; false: with another or no editor a property does not equal itself (unknown_editor, new_not_equal), it is not symmetric (equals_asymmetric), NaN differs from itself (nan_not_equal)."
  },
  {
   "property": "C92",
   "status": "partial",
   "theorems": [
    "Verif.UndoRef.history",
    "Verif.UndoRef.exists_iff",
    "Verif.UndoRef.no_dangling",
    "Verif.UndoRef.clear_gives_up",
    "Verif.UndoRef.sample_legal",
    "Verif.UndoRef.sample_careful",
    "Verif.UndoRef.sample_result",
    "Verif.UndoRef.open_transaction_leaks",
    "Verif.UndoRef.unbacked_dangles",
    "Verif.UndoRef.undone_add_leaks",
    "Verif.UndoRef.remove_destroys",
    "Verif.UndoRef.remove_undo_keeps",
    "Verif.UndoRef.Off.registerOff_nothing",
    "Verif.UndoRef.Off.off_plain",
    "Verif.UndoRef.Off.undo_after_untracked"
   ],
   "note": "Proved for all histories that keep to the rules, except: a manager destroyed in an open transaction leaks its references (open_transaction_leaks), and LinkedList::add does not register the reference of the new element, so an undone addition leaks it (undone_add_leaks). Destructors of objects that release others are not modelled. With tracking switched off registrations have no effect at all (registerOff_nothing), and programs run as if they made none (off_plain). Switching it off with a history left is not safe: a program that gives up its references meanwhile makes the next undo use a destroyed object (undo_after_untracked)."
  },
  {
   "property": "C93",
   "status": "proved",
   "theorems": [
    "Verif.UndoRef.history",
    "Verif.UndoRef.undo_step",
    "Verif.UndoRef.sample_result"
   ],
   "note": "The manager stays active (setActive(true))."
  },
  {
   "property": "C94",
   "status": "partial",
   "theorems": [
    "Verif.DoubleFmt.valueOf_fixed_partial",
    "Verif.DoubleFmt.valueOf_short_partial",
    "Verif.DoubleFmt.rendered_exact",
    "Verif.DoubleFmt.valueOf_whole",
    "Verif.DoubleFmt.argDouble_spec_partial",
    "Verif.DoubleFmt.no_places",
    "Verif.DoubleFmt.sign_lost",
    "Verif.DoubleFmt.negative_zero",
    "Verif.DoubleFmt.many_places",
    "Verif.DoubleFmt.large_numbers",
    "Verif.DoubleFmt.half_rounded_up"
   ],
   "note": "IEEE doubles; pow(10, n) is taken as exact. False: 0 places show a 0 behind the comma (no_places), between -0.000001 and 0 the minus is lost (sign_lost), -0,00 (negative_zero), from 16 places on wrong digits and undefined behaviour (many_places), undefined behaviour outside the range of int64 (large_numbers)."
  },
  {
   "property": "C95",
   "status": "partial",
   "theorems": [
    "Verif.DoubleText.valueOf_ten",
    "Verif.DoubleText.toDouble_nearest",
    "Verif.DoubleText.toDouble_no_number",
    "Verif.DoubleText.roundtrip_close",
    "Verif.DoubleText.ten_returns",
    "Verif.DoubleText.text_returns",
    "Verif.DoubleText.literal_returns",
    "Verif.DoubleText.zero_returns",
    "Verif.DoubleText.valueOf_plain",
    "Verif.DoubleText.valueOf_whole",
    "Verif.DoubleText.convert_nearest",
    "Verif.DoubleText.convert_fixed_partial",
    "Verif.DoubleText.convert_returns_partial",
    "Verif.DoubleText.third_changed",
    "Verif.DoubleText.no_point_zero",
    "Verif.DoubleText.special_lost",
    "Verif.DoubleText.odd_texts"
   ],
   "note": "The stream operators of the C++ library are specified in the model (printf %.10g, strtod, failures as in libstdc++, C locale). False: not every double survives (third_changed), whole numbers have no .0 as documented (no_point_zero), infinities and NaN are read back as 0 (special_lost), text with a broken exponent is read as 0 (odd_texts)."
  },
  {
   "property": "C96",
   "status": "partial",
   "theorems": [
    "Verif.Own.Props.bytearray_values",
    "Verif.Own.Props.chararray_values_partial",
    "Verif.Own.Props.array_values_partial",
    "Verif.Own.Props.string_values",
    "Verif.Own.Props.stringlist_values_partial",
    "Verif.Own.Props.vector_values",
    "Verif.Own.Props.matrix_values",
    "Verif.Own.Props.string_copy_independent",
    "Verif.Own.Props.resize_undefined",
    "Verif.Own.Props.chararray_copy_null",
    "Verif.Own.Props.array_copy_unwritten",
    "Verif.Own.Props.append_element",
    "Verif.Own.Props.append_element_eighth",
    "Verif.Own.Props.nurbs_copy_double_free",
    "Verif.Own.Props.stream_copy",
    "Verif.Own.Props.hashtable_copy_double_free",
    "Verif.Own.Props.attributes_copy",
    "Verif.Own.Props.resource_partial",
    "Verif.Own.Props.resource_no_leak",
    "Verif.Own.Props.resource_leak"
   ],
   "note": "False: ByteArray::resize frees with the wrong operator (resize_undefined), a CharArray without buffer cannot be copied (chararray_copy_null), Array of numbers is copied with unwritten cells (array_copy_unwritten), list.append(list[i]) reads a freed block when the list is full (append_element, append_element_eighth), copies made by the compiler of Nurbs, MemoryStream and Hashtable are freed twice, SAXAttributes cannot be copied, Resource::operator= leaks the old stream. Elements of StringList and Array are abstract values."
  },
  {
   "property": "C97",
   "status": "proved",
   "theorems": [
    "Verif.Thread.Props.mutual_exclusion",
    "Verif.Thread.Props.no_undefined",
    "Verif.Thread.Props.no_data_race",
    "Verif.Thread.Props.stuck_shape"
   ],
   "note": "The POSIX implementation (Linux, macOS), sequentially consistent memory; the Windows branches are not modelled. One start and one interrupt per thread object."
  },
  {
   "property": "C98",
   "status": "partial",
   "theorems": [
    "Verif.Thread.Props.interrupt_waits",
    "Verif.Thread.Props.interrupt_ends_partial",
    "Verif.Thread.Props.early_interrupt",
    "Verif.Thread.Props.lost_interrupt",
    "Verif.Thread.Props.lost_wakeup",
    "Verif.Thread.Props.wakeUp_wakes",
    "Verif.Thread.Props.wakeUp_wakes_one",
    "Verif.Thread.Props.alive_late"
   ],
   "note": "False: start(); interrupt() before the worker has set its flag leaves the worker running and interrupt waiting for ever (early_interrupt); a worker that calls sleep() after the signal sleeps for ever (lost_interrupt); a wakeUp before the sleep is forgotten (lost_wakeup); isAlive right after start may be false (alive_late). Proved where neither happens."
  },
  {
   "property": "C99",
   "status": "partial",
   "theorems": [
    "Verif.Thread.sleep_deadline",
    "Verif.Thread.sleep_negative",
    "Verif.Thread.sleep_too_long"
   ],
   "note": "False from 9223372036855 ms on: the sum wraps around and the thread does not sleep (sleep_too_long). That pthread_cond_timedwait keeps the time is assumed."
  }
 ]
}