# Axioms of the theorems in MANIFEST.json

Generated by tools/axioms.py from the output of `#print axioms`.

## no axioms (24)

Verif.UnitTest.Props.no_argument, Verif.UnitTest.Props.odd_arguments, Verif.Deflate.Props.deflate_first, Verif.Prog.Props.lastModified_missing, Verif.Arrays.float_ofList, Verif.DateVal.Props.reference_date, Verif.Num.Props.toInt_quirks, Verif.Num.Props.toBool_valueOfBool, Verif.Inflate.Count.Props.fresh_report, Verif.Str.CharProps.toLower_misses, Verif.Str.CharProps.isLetter_misses, Verif.Date.Props.weekday_epoch, Verif.Date.Props.weekday_witness, Verif.Xml.attrs_copy_ub, Verif.Arrays.Props.copy_of_null, Verif.Path.readFully_overrun, Verif.Path.lastModified_example, Verif.Path.lastModified_not_monotone, Verif.Color.constructors, Verif.Color.toRgb_grey, Verif.Property.bool_of_number, Verif.Property.bool_of_two, Verif.Property.variant_stale, Verif.Own.Props.attributes_copy

## Classical.choice, Quot.sound, propext (883)

Verif.Serializer.serializeBEInt16_spec, Verif.Serializer.serializeBEInt24_spec, Verif.Serializer.serializeBEInt32_spec, Verif.Serializer.serializeBEInt64_spec, Verif.Serializer.serializeLEInt16_spec, Verif.Serializer.serializeLEInt24_spec, Verif.Serializer.serializeLEInt32_spec, Verif.Serializer.serializeLEInt64_spec, Verif.Serializer.deserializeLEDouble_spec, Verif.Serializer.roundtrip_BE16, Verif.Serializer.roundtrip_BE32, Verif.Serializer.roundtrip_BE64, Verif.Serializer.roundtrip_LE16, Verif.Serializer.roundtrip_LE32, Verif.Serializer.roundtrip_LE64, Verif.Serializer.roundtrip_LEDouble, Verif.Base64.decode_encode_partial, Verif.Base64.decode_encode_actual, Verif.Base64.decode_encode_violated, Verif.Base64.encode_injective, Verif.Base64.encode_rfc4648, Verif.Base64.encode_length, Verif.Base64.encode_shape, Verif.CRC.crc8_bitwise, Verif.CRC.crc8_append, Verif.Hashtable.Props.spec_determined, Verif.Str.HashProps.equal_strings_equal_hash_partial, Verif.Str.HashProps.string_keys_partial, Verif.Str.CmpProps.equals_iff, Verif.Str.CmpProps.equalsIgnoreCase_iff, Verif.Str.CmpProps.compareTo_spec, Verif.Str.CmpProps.compareTo_total_order, Verif.Str.CmpProps.less_iff, Verif.Str.EditProps.edits_partial, Verif.Str.EditMore.deleteRange_past_end_exact, Verif.Str.EditMore.deleteRange_past_end_wrong, Verif.Str.EditMore.deleteRange_right_iff, Verif.Str.EditMore.deleteRange_minus, Verif.Str.EditMore.insertSelf_exact, Verif.Str.EditMore.insertSelf_right_iff, Verif.Str.EditMore.insertSelf_front, Verif.Str.EditMore.insertSelf_end, Verif.Str.PartProps.substring_spec, Verif.Str.PartProps.substringFrom_spec, Verif.Str.PartProps.trim_spec, Verif.Str.PartProps.trim_idempotent, Verif.Str.PartProps.reverse_spec, Verif.Str.PartProps.reverse_reverse, Verif.Str.PartProps.toLowerCase_spec, Verif.Str.PartProps.toUpperCase_spec, Verif.Str.PartProps.replaceChar_spec, Verif.Str.PartProps.lower_upper_char, Verif.Str.PartProps.count_spec, Verif.Log.Props.log_serial, Verif.Log.Props.log_progress, Verif.Log.Props.log_ends, Verif.Log.Props.whole_lines, Verif.Log.Props.line_message, Verif.Log.Props.message_cut, Verif.Log.Props.last_error_race, Verif.Log.Props.last_error_quiet, Verif.FileIO.Props.crash_prefix, Verif.FileIO.Props.read_overflow, Verif.FileIO.Handles.fair_owned, Verif.FileIO.Handles.fair_no_leak, Verif.FileIO.Handles.fair_defined, Verif.FileIO.Handles.open_leaks, Verif.FileIO.Handles.create_leaks, Verif.UnitTest.Props.passes_iff, Verif.UnitTest.Props.execute_counts, Verif.UnitTest.Props.execute_zero, Verif.UnitTest.Props.execute_defined, Verif.UnitTest.Props.check_defined, Verif.UnitTest.Props.near_passes, Verif.UnitTest.Props.passes_near, Verif.UnitTest.Props.same_passes, Verif.UnitTest.Props.number_selects, Verif.UnitTest.Props.word_selects_all, Verif.UnitTest.Props.negative_passes, Verif.TextIO.Props.read_line, Verif.TextIO.Props.read_last, Verif.TextIO.Props.read_all, Verif.TextIO.Props.utf8_comes_back, Verif.TextIO.Props.ascii_comes_back, Verif.TextIO.Props.nul_cuts, Verif.Tags.Props.history_partial, Verif.Tags.Props.set_get_partial, Verif.Tags.Props.long_lists_lost, Verif.Tags.Props.unreadable_erased, Verif.Tags.Props.comma_never_removed, Verif.Tags.Props.comma_added_again, Verif.Tags.Props.comma_doubles, Verif.Tags.Props.truncated_attribute, Verif.Deflate.Props.deflate_inflate_partial, Verif.Deflate.Props.not_injective, Verif.Deflate.Props.empty_rejected, Verif.Deflate.Props.zlib_exists, Verif.Dirs.lookup_plain, Verif.Dirs.makeDirectory_spec, Verif.Dirs.remove_spec, Verif.Dirs.make_remove, Verif.Dirs.history, Verif.Dirs.list_entries, Verif.Geo.anchors_contained, Verif.Geo.center_nearest_partial, Verif.Geo.isEmpty_iff, Verif.Geo.empty_contains, Verif.Geo.move_back_partial, Verif.Geo.cWise_spec, Verif.Geo.arith_rounds, Verif.Geo.size_eq_spec, Verif.Geo.Near.move_back_near, Verif.Geo.alignBottomLeft_partial, Verif.Geo.move_edges_partial, Verif.Geo.shift_edges_partial, Verif.Math.Fl.degToRad_error_partial, Verif.Math.Fl.angle_roundtrip_partial, Verif.Math.Fl.roundFrac_spec_partial, Verif.Math.Fl.roundFrac_idem_partial, Verif.Math.Fl.roundFrac_wrong, Verif.Math.Fl.epsilon_spec, Verif.Math.Single.roundFrac_spec_partial, Verif.Math.Single.roundFrac_idem_partial, Verif.Math.Single.epsilon_spec, Verif.Str.SearchProps.lastIndexOfStrFrom_spec, Verif.Str.SearchProps.lastIndexOfStr_spec, Verif.Str.SearchProps.indexOfStr_partial, Verif.Str.SearchProps.startsWith_spec, Verif.Str.SearchProps.atIs_spec, Verif.Str.SearchProps.endsWith_spec, Verif.Str.SafeProps.indexOfStr_noOverhang_partial, Verif.Str.AtProps.atIsIgnoreCase_spec, Verif.Str.AtProps.atIsIgnoreCase_lower, Verif.Str.AtProps.atIs_atIsIgnoreCase, Verif.Life.Props.settings_persist_partial, Verif.Life.Props.quit_frees_all_partial, Verif.Life.Props.save_without_prefs, Verif.Life.Props.no_prefs_at_start, Verif.Life.Props.quit_twice, Verif.Life.Props.crash_in_save, Verif.Life.Props.crash_between_lines_partial, Verif.Life.Props.after_quit_ub, Verif.Life.Props.init_twice_leaks, Verif.Life.Props.init_twice_drops_settings, Verif.Life.Props.init_empty_keeps, Verif.Life.Props.crash_breaks_next_start, Verif.Prog.Props.lastModified_within_partial, Verif.Prog.Props.lastModified_order_partial, Verif.Prog.Props.lastModified_backwards, Verif.Prog.Props.execPath_partial, Verif.Prog.Props.execPath_reads_behind, Verif.Prog.Props.execName_partial, Verif.Prog.Props.execDir_partial, Verif.Prog.Props.execDir_root_throws, Verif.Home.Props.execPath_cut, Verif.Xml.TypedProps.typed_roundtrip_partial, Verif.Xml.TypedProps.element_read, Verif.Xml.TypedProps.content_reads, Verif.Xml.TypedProps.bool_words, Verif.Xml.TypedProps.bool_lost, Verif.Xml.TypedProps.int_min_ub, Verif.Xml.TypedProps.big_unsigned, Verif.Xml.TypedProps.by_position, Verif.Xml.TypedProps.localName_qualified, Verif.Xml.TypedProps.valueAsBool_spec, Verif.Xml.TypedFloat.float_returns, Verif.Doc.Changed.unchanged_means_saved, Verif.FpVec.dotProduct_error, Verif.FpVec.mul_error, Verif.FpVec.mulVec_error, Verif.FpVec.dot_error, Verif.FpVec.dot3_error, Verif.FpVec.cross_error, Verif.FpVec.cross3_error, Verif.FpVec.mulV3_error, Verif.FpVec.trans_error, Verif.FpVec.det2_error, Verif.FpVec.det3_error, Verif.FpVec.det4_error, Verif.FpVec.left_right, Verif.FpVec.side_sound, Verif.FpVec.side_decided, Verif.FpVec.side_misses, Verif.FpVec.dot_comm, Verif.FpVec.dot2_comm, Verif.FpVec.cross_swap, Verif.FpVec.cross_self, Verif.FpVec.dot_self, Verif.FpVec.inverse_error, Verif.FpVec.dotProduct_int, Verif.FpVec.mul_int, Verif.FpVec.vertex_int, Verif.FpVec.vertex2_int, Verif.FpVec.side_int, Verif.FpVec.det_int, Verif.FpVec.inverse_int, Verif.DiffMem.diff_safe, Verif.DiffMem.never_fails, Verif.DiffMem.solve_current, Verif.DiffMem.report_entries, Verif.DiffMem.print_after, Verif.DiffMem.diagonals_leak, Verif.DiffMem.copy_freed_twice, Verif.DiffMem.int64_change_partial, Verif.DiffMem.int64_overflow, Verif.DiffMem.int32_change, Verif.DiffMem.uint64_change, Verif.DiffMem.unsigned_delta, Verif.DiffMem.uint32_change, Verif.DiffMem.unsigned_decrease, Verif.DiffMem.change_unique, Verif.DiffMem.integer_single, Verif.DiffMem.keep_silent, Verif.DiffMem.string_change, Verif.DiffMem.string_change_ignore_case, Verif.DiffMem.string_single, Verif.DiffMem.string_ambiguous, Verif.DiffMem.double_change, Verif.DiffMem.double_tolerance_partial, Verif.DiffMem.vertex_change, Verif.DiffMem.special_reported, Verif.Arrays.sort_stable, Verif.Arrays.sort_keeps_equivalents, Verif.Arrays.ptr_copy, Verif.Arrays.ptr_sort_partial, Verif.Arrays.ptr_sort_null_first, Verif.Arrays.ptr_sort_null, Verif.Arrays.float_sort_permutes, Verif.Arrays.float_sort_partial, Verif.Arrays.float_nan_blocks, Verif.UndoMem.Props.memory_refines, Verif.UndoMem.Props.memory_history, Verif.UndoMem.Props.destroyed_partial, Verif.UndoMem.Props.destroy_leaks_transaction, Verif.UndoMem.Props.close_wraps, Verif.Str.SearchProps.replaceStr_partial, Verif.Str.SearchProps.replace_empty_diverges, Verif.Str.SafeProps.replaceStr_noOverhang_partial, Verif.Undo.Typed.double_stored, Verif.Undo.Typed.vertex_stored_partial, Verif.Undo.Typed.vertex_small_moves_lost, Verif.Undo.Typed.vertex_nan_accepted, Verif.Undo.Typed.int_stored, Verif.ObjCopy.lifetime_partial, Verif.ObjCopy.implicit_assign, Verif.ObjCopy.implicit_copy, Verif.ObjCopy.after_quit, Verif.ObjCopy.sample_result, Verif.ObjCopy.sample_assign_own, Verif.FpLen.abs2_accuracy, Verif.FpLen.abs3_accuracy, Verif.FpLen.absN_accuracy, Verif.FpLen.abs3_exact, Verif.FpLen.abs2_exact, Verif.FpLen.abs_valid, Verif.FpLen.abs2_valid, Verif.FpLen.abs3_mono, Verif.FpLen.dist_self, Verif.FpLen.dist3_accuracy, Verif.FpLen.dist2_accuracy, Verif.FpLen.dist3_pos, Verif.FpLen.dist3_triangle, Verif.FpLen.unit3_accuracy, Verif.FpLen.cosine_accuracy, Verif.FpLen.abs3_tiny, Verif.FpLen.abs3_huge, Verif.Fp.sqrt_nearest, Verif.Fp.sqrt_rel, Verif.Fp.sqrt_exact, Verif.Fp.sqrt_mono, Verif.Home.Props.userDir_home, Verif.Home.Props.propertyDir_partial, Verif.Home.Props.propertyDir_shared, Verif.Home.Props.propertyDir_homeless, Verif.Home.Props.currentDir_exact_partial, Verif.Home.Props.tempDir_is_current, Verif.Home.Props.tempDir_not_tmp, Verif.DateVal.Props.now_floor, Verif.DateVal.Props.now_mono, Verif.DateVal.Props.ns_accurate, Verif.DateVal.Props.ns_whole, Verif.DateVal.Props.ns_mono, Verif.DateVal.Props.ns_overflow, Verif.DateVal.Props.operators, Verif.DateVal.Props.empty, Verif.DateVal.DayProps.dayOfYear_spec, Verif.Sys.Props.language_exact, Verif.Sys.Props.language_missing, Verif.Sys.Props.language_partial, Verif.Sys.Props.never_promised, Verif.Sys.Props.variant_stays, Verif.Sys.Props.mixed, Verif.Sys.Props.messages_ignored, Verif.Sys.Props.not_installed, Verif.Sys.Props.again, Verif.Sys.Props.changes_locale, Verif.Sys.Props.translation_found, Verif.Sys.Props.translation_lost, Verif.Sys.UserProps.userId_exact, Verif.Sys.UserProps.userId_partial, Verif.Sys.UserProps.userId_any, Verif.Sys.UserProps.userFullName_exact, Verif.Sys.UserProps.userFullName_partial, Verif.Sys.UserProps.userFullName_unknown, Verif.Sys.UserProps.macAddress1_partial, Verif.Sys.UserProps.mac_never, Verif.Sys.UserProps.mac_null, Verif.Sys.UserProps.mac_failed, Verif.HashMem.Props.table_in_memory, Verif.HashMem.Props.live_entries, Verif.HashMem.Props.iterate_and_modify, Verif.HashMem.Props.key_by_reference, Verif.HashMem.Props.put_while_iterating_is_safe, Verif.HashMem.Props.remove_then_next_is_ub, Verif.HashMem.Props.clear_then_next_is_ub, Verif.HashMem.Props.copy_freed_twice, Verif.UndoRef.list_history, Verif.UndoRef.undo_lists, Verif.UndoRef.redo_lists, Verif.UndoRef.rollback_lists, Verif.UndoRef.forgotten, Verif.UndoRef.removed_destroyed, Verif.UndoRef.swap_once, Verif.UndoRef.undone_add_always_leaks, Verif.LinkedList.Iter.Props.iteration, Verif.LinkedList.Iter.Props.remove_while_iterating, Verif.LinkedList.Iter.Props.cursor_safe, Verif.LinkedList.Iter.Props.upcoming_removed_ub, Verif.LinkedList.Iter.Props.upcoming_removed_ends, Verif.LinkedList.Iter.Props.added_at_end, Verif.LinkedList.Iter.Props.search_ends_iteration, Verif.LinkedList.Iter.Props.nested_cursor, Verif.Num.Props.valueOf_partial, Verif.Num.Props.valueOfU_spec, Verif.Num.Props.toInt_numeral, Verif.Num.Props.toInt_valueOf_partial, Verif.Num.Props.valueOf_injective, Verif.Num.Props.toInt_bad_char, Verif.Inflate.Count.Props.counters, Verif.Inflate.Count.Props.trailing_bytes, Verif.Inflate.Count.Props.rejected_stays, Verif.Inflate.Count.Props.cut_input_ub, Verif.Inflate.Count.Props.cut_stream_ub, Verif.Inflate.Count.Props.zlib_trailer, Verif.Inflate.Count.Props.reset_like_new, Verif.Inflate.Count.Props.again_ub, Verif.Str.ConcatProps.outs_partial, Verif.Str.ConcatProps.plus_int_partial, Verif.Str.ConcatProps.int8_never_numeral, Verif.Str.ConcatProps.char_high, Verif.Str.CharProps.isLetter_iff, Verif.Str.CharProps.convert_twice, Verif.Str.CharProps.convert_letters, Verif.Str.CharProps.toLower_partial, Verif.Str.CharProps.texts_convert, Verif.Vtx.VecProps.add_elements, Verif.Vtx.VecProps.sub_elements, Verif.Vtx.VecProps.add_spec, Verif.Vtx.VecProps.sub_spec, Verif.Vtx.VecProps.add_rejects, Verif.Vtx.VecProps.smul_spec, Verif.Vtx.VecProps.dotProduct_spec, Verif.Vtx.VecProps.dotProduct_same, Verif.Vtx.VecProps.abs_spec, Verif.Vtx.VecProps.normalize_spec, Verif.Vtx.VecProps.normalize_null, Verif.Vtx.VecProps.new_spec, Verif.Vtx.MeasureProps.transLength_segment, Verif.Vtx.MeasureProps.transLength_partial, Verif.Vtx.MeasureProps.scales_examples, Verif.Vtx.MeasureProps.transLength_other_direction, Verif.Vtx.MeasureProps.transAngle_spec, Verif.Vtx.MeasureProps.transAngle_iff, Verif.Vtx.MeasureProps.transAngle_rotation_partial, Verif.Vtx.MeasureProps.transAngle_identity, Verif.Undo.Buffer.registerAll_unbounded, Verif.Print.vector_words, Verif.Print.vector_determined, Verif.Print.matrix_lines, Verif.Print.create_ok, Verif.Print.trace_text, Verif.Lists.TokenizerProps.tokenizer_words, Verif.Lists.TokenizerProps.tokenizer_delims, Verif.Lists.TokenizerProps.split_spec, Verif.Sort.Props.sort_sorts, Verif.Sort.Props.byteArray_sort, Verif.Stack.Props.history, Verif.Stack.Props.copy_double_free, Verif.Charset.Utf8Props.encode_standard, Verif.Charset.Utf8Props.encode_total, Verif.Charset.Utf8Props.roundtrip_partial, Verif.Charset.Utf8Props.decode_standard, Verif.Charset.Utf8Props.encode_injective, Verif.Charset.Utf8Props.leading_feff_lost, Verif.Charset.Utf8Props.nul_truncates, Verif.Charset.Utf8Props.truncated_reads_outside, Verif.Undo.Props.undo_restores, Verif.Undo.Props.undo_restores_all, Verif.Undo.Props.history, Verif.Undo.Props.undo_redo_inverse, Verif.Undo.Props.rollback_restores, Verif.Undo.Props.commit_keeps, Verif.Undo.Props.close_transaction, Verif.Undo.Props.lastFailure_ok, Verif.LinkedList.Props.history_partial, Verif.LinkedList.Props.no_leak, Verif.LinkedList.Props.swap_swaps, Verif.LinkedList.Props.swap_ignored, Verif.LinkedList.Props.undo_history, Verif.LinkedList.Props.undo_redo, Verif.RefCount.refcount_safe, Verif.RefCount.last_release_destroys, Verif.RefCount.mutual_exclusion, Verif.RefCount.drain_releases_all, Verif.RefCount.pool_never_over_releases, Verif.RefCount.drain_keeps_retained, Verif.RefCount.Pool.pool_entries, Verif.Date.Props.construct_components, Verif.Date.Props.components_injective, Verif.Date.Props.reconstruct, Verif.Date.Props.time_of_day, Verif.Date.Props.calendar, Verif.Date.Props.epoch, Verif.Date.Props.same_day, Verif.Date.Props.weekday_partial, Verif.Date.Props.weekday_cycle, Verif.Date.Props.weekday_before_1970, Verif.Num.IntegerProps.toHexString_spec, Verif.Num.IntegerProps.hex_roundtrip_partial, Verif.Num.IntegerProps.digitCount_spec, Verif.Num.IntegerProps.latin_value_partial, Verif.Num.IntegerProps.latin_injective_partial, Verif.Num.IntegerProps.latin_correct_partial, Verif.Num.IntegerProps.latin_26_multiples, Verif.Math.divFloor_modFloor, Verif.Math.divFloor_eq_fdiv, Verif.Math.powerOf2_iff, Verif.Math.ceilPowerOf2_partial, Verif.Math.ceilPowerOf2_outside, Verif.Diff.Props.distance_minimal, Verif.Diff.Props.distance_zero, Verif.Diff.Props.distance_symmetric, Verif.Diff.Props.script_valid_partial, Verif.Diff.Props.objects, Verif.Diff.Props.objects_one_sided, Verif.Xml.read_back_partial, Verif.Xml.read_back_exact, Verif.Xml.parse_document_partial, Verif.Xml.text_in_one_piece, Verif.Xml.file_read_back, Verif.Xml.written_nulFree, Verif.Xml.apostrophe_lost, Verif.Xml.numeric_reference_dropped, Verif.Xml.declaration_unbalanced, Verif.Xml.trailing_text_dropped, Verif.Xml.bad_input, Verif.Xml.white_space_split, Verif.Xml.text_then_end, Verif.Xml.base64_then_end, Verif.Xml.base64_indented, Verif.Xml.document_nested, Verif.Xml.writer_total, Verif.Xml.text_escaped, Verif.Xml.text_without_markup, Verif.Xml.before_startDocument, Verif.Xml.late_attribute_dropped, Verif.Xml.raw_text_unescaped, Verif.Url.Props.urlDecode_tokens, Verif.Url.Props.url_roundtrip_partial, Verif.MemStream.stream_is_tape_partial, Verif.MemStream.write_overflows, Verif.MemStream.seek_negative, Verif.Path.normalize_spec, Verif.Path.normalize_normal, Verif.Path.parent_name_spec, Verif.Path.name_last_component, Verif.Path.fileIn_partial, Verif.Path.fileOf_partial, Verif.Path.recompose_partial, Verif.Path.extension_partial, Verif.Prefs.Props.save_load_partial, Verif.Prefs.Props.pairs_survive_partial, Verif.Inflate.codes_canonical, Verif.Inflate.codes_prefix_free, Verif.Inflate.tree_decodes_partial, Verif.Inflate.empty_code_ub, Verif.Inflate.bubble_sorts, Verif.Inflate.equal_codes_found, Verif.Inflate.inflate_wraps, Verif.Inflate.inflate_decodes_partial, Verif.Inflate.inflate_zlib_partial, Verif.Inflate.header_rejects, Verif.Inflate.checksum_ignored, Verif.Inflate.far_copy_wrong, Verif.Zip.reads_archive_partial, Verif.Zip.entry_finds_partial, Verif.Zip.leading_end_record_missed, Verif.Zip.unknown_method_ub, Verif.Zip.short_entry_leaks, Verif.Zip.crc_not_checked, Verif.Undo.Props.setMember_spec, Verif.Arrays.Props.bytearray_history_partial, Verif.Arrays.Props.bytearray_progress, Verif.Arrays.Props.resize_grow, Verif.Arrays.Props.terminator_lost, Verif.Arrays.Props.replaceRange_partial, Verif.Arrays.Props.replaceRange_exact, Verif.Arrays.Props.replaceRange_right_iff, Verif.Str.ArgProps.arg_spec_partial, Verif.Str.ArgProps.arg_no_placeholder, Verif.Geo.extents_smallest_box, Verif.Geo.extents_order, Verif.Geo.union_contains_partial, Verif.Geo.intersect_exact_partial, Verif.Geo.intersection_exact_partial, Verif.Geo.intersects_iff, Verif.Geo.normalize_partial, Verif.Geo.set_edges_partial, Verif.Geo.onGrid_int, Verif.Geo.Near.set_edges_near, Verif.Geo.Near.union_near, Verif.Geo.Near.union_covers, Verif.Geo.Near.intersect_near, Verif.Geo.Near.intersection_near, Verif.Geo.Near.normalize_near, Verif.Geo.common_point_intersects, Verif.Geo.intersection_exact_iff, Verif.Geo.disjoint_points, Verif.Lists.StringListProps.list_history_partial, Verif.Lists.StringListProps.list_history_sized_partial, Verif.Lists.StringListProps.append_own_element, Verif.Lists.StringListProps.remove_own_first, Verif.Lists.StringListProps.split_join, Verif.Lists.StringListProps.split_parts_free, Verif.CRC.crc8_detects_bit_burst, Verif.CRC.crc8_detects_burst, Verif.CRC.crc8_detects_bit, Verif.CRC.crc8_misses_high_first, Verif.Math.Fl.tolerance_fp_partial, Verif.Math.Fl.isEqual_symm, Verif.Math.Fl.isEqual_refl, Verif.Math.Fl.isLessEqual_not_greater, Verif.Math.Fl.large_less_itself, Verif.Math.tolerance_trichotomy_partial, Verif.Math.isEqual_not_transitive, Verif.Math.Fl.isGreaterEqual_fp_partial, Verif.Math.Fl.less_itself_iff, Verif.Math.Fl.itself_only_equal, Verif.Math.Fl.tolerance_total, Verif.Math.Fl.round_fp_partial, Verif.Math.Fl.round_odd, Verif.Math.Fl.sign_fp, Verif.Math.Fl.interpolate_fp_partial, Verif.Math.round_partial, Verif.Math.interpolate_partial, Verif.Math.random_in_range, Verif.Math.random_defined, Verif.Math.Fl.interpolateRange_fp_partial, Verif.Math.Single.interpolate_partial, Verif.Math.Fl.random01_range, Verif.Math.Fl.random01_every, Verif.Math.Fl.random01Win_range, Verif.Math.Fl.probability_threshold, Verif.Math.Fl.probability_ub, Verif.Math.Fl.interpolate_error, Verif.Math.Fl.interpolate_range, Verif.Math.Fl.interpolateRange_range, Verif.Str.ArgProps.compareFancy_spec, Verif.Str.ArgProps.compareFancy_preorder, Verif.Date.Props.toString_iso, Verif.Date.Props.toString_injective, Verif.Date.Props.compareTo_order, Verif.Date.Props.empty_date_overflows, Verif.Undo.Props.undo_notifies, Verif.Undo.Props.redo_notifies, Verif.Undo.Props.step_owners, Verif.RefCount.no_deadlock_partial, Verif.RefCount.drain_self_lock, Verif.RefCount.highBit_sequential, Verif.Path.compareTo_before, Verif.Path.compareTo_order, Verif.Path.lastModified_partial, Verif.Prefs.Props.history_partial, Verif.Prefs.Props.destructor_frees_all, Verif.Prefs.Props.int_roundtrip_partial, Verif.Prefs.Props.bool_roundtrip, Verif.Prefs.Props.double_roundtrip_partial, Verif.Prefs.Props.typed_default, Verif.Prefs.Props.double_default, Verif.Prefs.Props.double_of_text, Verif.Prefs.Props.int_default_on_text, Verif.Zip.crc32_remainder, Verif.Zip.crc32_collides_iff, Verif.Zip.crc32_detects_burst, Verif.Zip.session_writes_archive, Verif.Zip.session_roundtrip, Verif.Zip.overwrite_keeps_tail, Verif.Zip.overwrite_reads_old_directory, Verif.Zip.overwrite_example, Verif.Zip.many_entries_lost, Verif.Color.eq_iff, Verif.Color.add_sub, Verif.Color.rgb_to_cmyk_partial, Verif.Color.toGreyScale_white, Verif.Color.blend_opaque, Verif.Color.pdColour_opaque, Verif.Color.blend_onto_opaque, Verif.Color.blend_transparent, Verif.Color.blend_translucent_partial, Verif.Color.blend_dark, Verif.Color.blend_whole_alpha, Verif.Color.blend_overflow, Verif.Color.blend_invisible, Verif.Color.blend_nothing, Verif.Color.blend_cover, Verif.Color.interpolate_spec, Verif.Color.hsvModel_spec, Verif.Color.fromHsv_spec, Verif.Color.hsv_round_trip, Verif.Mx.Mat.zeros_spec, Verif.Mx.Mat.diag_spec, Verif.Mx.Mat.transpose_spec, Verif.Mx.Mat.transpose_transpose, Verif.Mx.Mat.insert_spec, Verif.Mx.Mat.insertAt_spec, Verif.Mx.Mat.mapLoop_spec, Verif.Mx.Mat.smul_spec, Verif.Mx.Mat.add_square_partial, Verif.Mx.Mat.mul_spec, Verif.Mx.Mat.add_all, Verif.Mx.Mat.mul_matrix, Verif.Mx.Mat.transpose_matrix, Verif.Mx.Mat.add_matrix_partial, Verif.Mx.Mat.smul_matrix, Verif.Mx.Mat.mul_assoc_matrix, Verif.Mx.Mat.trace_spec, Verif.Mx.Mat.trace_square, Verif.Mx.Mat.norm1_spec, Verif.Mx.Mat.normInf_spec, Verif.Mx.Mat.det_spec, Verif.Mx.Mat.inverse_spec, Verif.Mx.Mat.inverse_singular, Verif.Mx.Mat.nonZeroElementCount_spec, Verif.Mx.Mat.trans_spec, Verif.Mx.Mat.trans_identity, Verif.Mx.Mat.trans_moving, Verif.Mx.Mat.trans_scaling, Verif.Mx.Mat.trans_scalingAt, Verif.Mx.Mat.trans_mirroring, Verif.Mx.Mat.mirroring_reflection, Verif.Mx.Mat.mirroring_needs_unit, Verif.Mx.Mat.rotation_spec, Verif.Mx.Mat.rodrigues_rotation, Verif.Mx.Mat.rotationXYZ, Verif.Mx.Mat.trans_rotationAt, Verif.Mx.Mat.trans_rotationZ4, Verif.Mx.Mat.lastRow_all, Verif.Mx.Mat.trans_mul, Verif.Vtx.crossProduct_spec, Verif.Vtx.over_spec, Verif.Vtx.abs_spec, Verif.Vtx.dot_bound, Verif.Vtx.normalized_spec, Verif.Vtx.angleTo_spec, Verif.Vtx.tests_spec, Verif.Vtx.tests_depend_on_length, Verif.Vtx.biggest_spec, Verif.Vtx.biggest_tie, Verif.Vtx.rotate_spec, Verif.Vtx.eq_spec, Verif.Vtx.eq_not_transitive, Verif.Vtx.isLinearIndependent_spec, Verif.Vtx.MeasureProps.isValid_spec, Verif.Vtx.MeasureProps.scale_spec, Verif.Vtx.over2_spec, Verif.Vtx.P2.normalized_spec, Verif.Vtx.P2.rotated_spec, Verif.Vtx.P2.angleTo_spec, Verif.Vtx.P2.isRightTo_spec, Verif.Vtx.P2.tests_spec, Verif.Vtx.P2.solveLinearSystem_partial, Verif.Vtx.P2.solveLinearSystem_pivot, Verif.Vtx.MeasureProps.isValid2_spec, Verif.Vtx.MeasureProps.scale2_spec, Verif.Vtx.P2.solveLinearSystem_iff, Verif.Vtx.halfTurn_spec, Verif.Vtx.rotationUV_partial, Verif.Vtx.rotationUV_short, Verif.Vtx.rotationUV_opposite, Verif.Vtx.ocs_axes, Verif.Vtx.ocs_spec, Verif.Vtx.MeasureProps.initWcs_spec, Verif.Vtx.rotationUV_almost_opposite, Verif.Vtx.rotationUV_short_iff, Verif.Mx.Mat.Eigenvalues.mem, Verif.Mx.Mat.eigen_one, Verif.Mx.Mat.eigen_two, Verif.Mx.Mat.eigen_two_symmetric, Verif.Mx.Mat.eigen_three_partial, Verif.Mx.Mat.eigen_three_triangular, Verif.Mx.Mat.eigen_unsymmetric, Verif.Mx.Mat.eigen_rejects, Verif.Geom.linePlane_partial, Verif.Geom.linePlane_invalid, Verif.Geom.linePlane_small, Verif.Geom.closestPointOnPlane_partial, Verif.Geom.closestPointOnPlane_short, Verif.Geom.closestPointOnLine_partial, Verif.Geom.closestPointSegment_partial, Verif.Geom.segment_distance_nan, Verif.Geom.distancePointToPoint_spec, Verif.Geom.isSamePoint_spec, Verif.Geom.isPointOnLine_partial, Verif.Geom.isPointOnPlane_spec, Verif.Geom.isPointOnPlane_default, Verif.Geom.closestPointOnLine_short, Verif.Geom.closestPointSegment_short, Verif.Geom.isPointOnLine_iff, Verif.Geom.isPointOnPlane_iff, Verif.Geom.isPointOnSegment_iff, Verif.Geom.closestPointLines_partial, Verif.Geom.usable_unit, Verif.Geom.distanceLineToLine_skew_partial, Verif.Geom.distanceLineToLine_parallel, Verif.Geom.distanceLineToLine_gap, Verif.Geom.distanceLineToLine_almost_parallel, Verif.Geom.intersectionPoint3_partial, Verif.Geom.intersectionPoint3_parallel, Verif.Geom.distanceLineToLine_parallel_all, Verif.Geom.distanceLineToLine_unusable, Verif.Geom.distanceLineToLine_nan_iff, Verif.Geom.distancePointToPoint2_spec, Verif.Geom.closestPointOnLine2_partial, Verif.Geom.closestPointOnLine2_short, Verif.Geom.intersectionPoint2_partial, Verif.Geom.intersectionPoint2_parallel, Verif.Geom.crosses_partial, Verif.Geom.crosses_overlap, Verif.Geom.crosses_pivot, Verif.Geom.extensionPointOnLine_partial, Verif.Geom.closestPointOnLine2_short_iff, Verif.Geom.intersectionPoint2_iff, Verif.Geom.intersectionPoint2_invalid, Verif.Geom.crosses_iff, Verif.Geom.crosses_order, Verif.Geom.extensionPointOnLine_flat, Verif.Geom.extensionPointOnLine_short, Verif.Geom.intersectionPointsOfCircles_spec, Verif.Geom.circleParameterBy3Points_spec, Verif.Geom.circleParameterBy3Points_collinear, Verif.Geom.closestPointOnCircle_partial, Verif.Geom.closestPointOnCircle_axis, Verif.Geom.closestPointOnCircle_small, Verif.Geom.angleBisector_partial, Verif.Geom.angleBisector2_partial, Verif.Geom.circleParameterBy2TangentsRadius_partial, Verif.Geom.circleParameterBy2TangentsRadius_parallel, Verif.Geom.circleInto_first, Verif.Geom.closestPointOnCircle_short_normal, Verif.Geom.angleBisector_short, Verif.Geom.angleBisector_short_both, Verif.Geom.angleBisector2_short, Verif.Geom.closestPointOnCircle_negative, Verif.Geom.isPointOnCircle_iff, Verif.Geom.checkAngle_partial, Verif.Geom.checkAngle_wrong, Verif.Geom.pqCheck_spec, Verif.Geom.extensionPointOnArc_partial, Verif.Geom.extensionPointOnArc_touch, Verif.Geom.extensionPointOnEllipse_partial, Verif.Geom.extensionPointOnEllipse_minor, Verif.Geom.extensionPointOnEllipse_turned, Verif.Nurbs.point_partial, Verif.Nurbs.basis_unique, Verif.Nurbs.isBasis, Verif.Nurbs.point_hull_partial, Verif.Nurbs.point_affine_partial, Verif.Nurbs.point_equal_weights_partial, Verif.Nurbs.point_start_partial, Verif.Nurbs.point_bezier, Verif.Nurbs.point_outside, Verif.Nurbs.end_spec, Verif.Nurbs.point_end, Verif.Nurbs.start_spec, Verif.Nurbs.start_outside, Verif.Nurbs.knot_spec, Verif.Nurbs.point_close_knots, Verif.DateFmt.format_partial, Verif.DateFmt.format_exact, Verif.DateFmt.decompose, Verif.DateFmt.format_total, Verif.DateFmt.quoted_text, Verif.DateFmt.run_before_text, Verif.DateFmt.iso_pattern, Verif.DateFmt.long_run, Verif.DateFmt.september, Verif.DateFmt.open_quote, Verif.DateFmt.open_quote_run, Verif.DateFmt.other_letters, Verif.DateFmt.weekday_missing, Verif.DateFmt.shows_exists, Verif.I18n.translate_partial, Verif.I18n.translate_exact, Verif.I18n.appendMo_ok, Verif.I18n.line_break, Verif.I18n.transFile_spec, Verif.I18n.transFile_sample, Verif.I18n.fallback_sample, Verif.Guess.guess_exact, Verif.Guess.guess_marked, Verif.Guess.guess_utf16, Verif.Guess.guess_ascii, Verif.Guess.guess_default_partial, Verif.Guess.never_default, Verif.Guess.empty_stream, Verif.Guess.single_byte, Verif.Guess.utf8_misread, Verif.Guess.default_sample, Verif.Guess.default_systems, Verif.Guess.guess_all, Verif.Guess.guess_ub_iff, Verif.Guess.guess_no_other_error, Verif.Guess.forName_spec, Verif.Guess.table_names, Verif.Guess.forName_utf16, Verif.Guess.guess_known, Verif.Guess.forName_find, Verif.Property.equals_partial, Verif.Property.equals_value, Verif.Property.equals_refl_partial, Verif.Property.equals_symm_partial, Verif.Property.unknown_editor, Verif.Property.new_not_equal, Verif.Property.equals_asymmetric, Verif.Property.nan_not_equal, Verif.Property.checkbox_sample, Verif.UndoRef.history, Verif.UndoRef.exists_iff, Verif.UndoRef.no_dangling, Verif.UndoRef.clear_gives_up, Verif.UndoRef.undo_step, Verif.DoubleFmt.valueOf_fixed_partial, Verif.DoubleFmt.valueOf_short_partial, Verif.DoubleFmt.rendered_exact, Verif.DoubleFmt.valueOf_whole, Verif.DoubleFmt.argDouble_spec_partial, Verif.DoubleFmt.no_places, Verif.DoubleFmt.sign_lost, Verif.DoubleFmt.negative_zero, Verif.DoubleFmt.many_places, Verif.DoubleFmt.half_rounded_up, Verif.DoubleText.valueOf_ten, Verif.DoubleText.toDouble_nearest, Verif.DoubleText.roundtrip_close, Verif.DoubleText.ten_returns, Verif.DoubleText.text_returns, Verif.DoubleText.literal_returns, Verif.DoubleText.valueOf_plain, Verif.DoubleText.valueOf_whole, Verif.DoubleText.convert_nearest, Verif.DoubleText.convert_fixed_partial, Verif.DoubleText.convert_returns_partial, Verif.DoubleText.third_changed, Verif.DoubleText.no_point_zero, Verif.DoubleText.special_lost, Verif.DoubleText.odd_texts, Verif.Own.Props.bytearray_values, Verif.Own.Props.chararray_values_partial, Verif.Own.Props.array_values_partial, Verif.Own.Props.string_values, Verif.Own.Props.stringlist_values_partial, Verif.Own.Props.vector_values, Verif.Own.Props.matrix_values, Verif.Own.Props.string_copy_independent, Verif.Own.Props.append_element, Verif.Own.Props.append_element_eighth, Verif.Thread.Props.no_undefined, Verif.Thread.Props.no_data_race, Verif.Thread.Props.stuck_shape, Verif.Thread.Props.interrupt_waits, Verif.Thread.Props.interrupt_ends_partial, Verif.Thread.Props.early_interrupt, Verif.Thread.Props.wakeUp_wakes_one

## Quot.sound, propext (231)

Verif.Serializer.serializeLEUInt16_spec, Verif.Serializer.serializeLEDouble_spec, Verif.Serializer.serializeLEFloat_spec, Verif.Serializer.deserializeBE16_spec, Verif.Serializer.deserializeLE16_spec, Verif.Serializer.deserializeBE32_spec, Verif.Serializer.deserializeLE32_spec, Verif.Serializer.deserializeBE64_spec, Verif.Serializer.deserializeLE64_spec, Verif.Serializer.roundtrip_LEU16, Verif.Serializer.serializeBEInt32_outside, Verif.Base64.decode_safe, Verif.Base64.decode_reads_outside, Verif.Hashtable.Props.table_is_map, Verif.Hashtable.Props.containsKey_null_value, Verif.Hashtable.Props.iteration_exact, Verif.Hashtable.Props.hasNext_exact, Verif.Hashtable.Props.load_bounded, Verif.Str.HashProps.neverHashed_clean, Verif.Str.HashProps.hashCode_twice, Verif.Str.HashProps.hash_after_assign, Verif.Str.HashProps.hash_after_toLowerCase, Verif.Str.HashProps.table_lookup_fails, Verif.Str.UndoProps.undo_hash_iff, Verif.Str.UndoProps.undo_hash_fails, Verif.Str.EditProps.constructed, Verif.Str.EditProps.deleteRange_past_end, Verif.Str.EditProps.deleteRange_negative_length, Verif.Str.EditProps.insert_into_itself, Verif.Str.EditMore.deleteRange_negative, Verif.Str.EditMore.deleteRange_minus_front, Verif.Str.EditMore.deleteRange_minus_room, Verif.Str.EditMore.charAt_spec, Verif.Str.EditMore.setCharAt_charAt, Verif.Str.PartProps.isTrim_unique, Verif.FileIO.Props.session_spec, Verif.FileIO.Props.written_read_back, Verif.FileIO.Props.session_defined, Verif.FileIO.Props.in_turn_defined, Verif.FileIO.Props.read_after_write, Verif.FileIO.Props.size_late, Verif.FileIO.Handles.two_files, Verif.FileIO.Handles.remove_spec, Verif.FileIO.Handles.rename_spec, Verif.FileIO.Handles.create_empty, Verif.FileIO.Handles.create_destroys, Verif.UnitTest.Props.min_message, Verif.UnitTest.Props.beyond_is_fine, Verif.TextIO.Props.read_end, Verif.TextIO.Props.long_line, Verif.TextIO.Props.accent_lost, Verif.TextIO.Props.accent_changed, Verif.TextIO.Props.macron_cuts, Verif.Deflate.Props.deflated_prefix, Verif.Deflate.Props.totals, Verif.Deflate.Props.run_defined, Verif.Deflate.Props.short_incomplete, Verif.Deflate.Props.long_input_cut, Verif.Dirs.kinds_exclusive, Verif.Dirs.exists_iff, Verif.Dirs.race_less, Verif.Dirs.dot_again, Verif.Str.SearchProps.indexOfChar_spec, Verif.Str.SearchProps.lastIndexOfChar_spec, Verif.Str.SearchProps.lastIndexOfCharFrom_spec, Verif.Str.SearchProps.constructed_terminated, Verif.Str.SearchProps.indexOf_stale_match, Verif.Str.SearchProps.indexOf_reads_outside, Verif.Str.SafeProps.noOverhang_single, Verif.Str.SafeProps.noOverhang_pair, Verif.Xml.TypedProps.special_lost, Verif.Xml.TypedProps.apostrophe_dropped, Verif.Doc.Props.documents, Verif.Doc.Props.documents_independent, Verif.Doc.Props.marked_when_closed, Verif.Doc.ManProps.abs_closeTransaction, Verif.Arrays.ptr_get_set, Verif.Arrays.ptr_new_unset, Verif.Arrays.float_get_set, Verif.Arrays.float_copy, Verif.ObjCopy.before_init, Verif.ObjCopy.sample_assign, Verif.FpLen.dist_symm, Verif.Home.Props.currentDir_gone, Verif.Sys.UserProps.isMac_unique, Verif.HashMem.Props.put_delivers_twice, Verif.HashMem.Props.put_skips, Verif.UndoRef.listSample_legal, Verif.Num.Props.valueOf_min_overflows, Verif.Str.ConcatProps.outs_example, Verif.Str.ConcatProps.plus_spec, Verif.Str.ConcatProps.plus_assoc, Verif.Str.ConcatProps.plus_empty, Verif.Str.ConcatProps.plus_double, Verif.Str.ConcatProps.int8_is_a_character, Verif.Str.ConcatProps.int64_min, Verif.Str.CharProps.classes_disjoint, Verif.Vtx.VecProps.smul_elements, Verif.Vtx.VecProps.dotProduct_shorter, Verif.Undo.Buffer.registerBuffer_partial, Verif.Undo.Buffer.registerBuffer_inactive, Verif.Undo.Buffer.registerAll_lost, Verif.Undo.Buffer.registerBuffer_short, Verif.Print.copy_same, Verif.Print.no_symbols, Verif.Lists.TokenizerProps.delims_unique, Verif.Sort.Props.sort_permutes, Verif.Sort.Props.nan_blocks_sorting, Verif.Charset.Utf8Props.supplementary_nonstandard, Verif.Charset.Utf8Props.supplementary_misread, Verif.Charset.Utf8Props.inner_bom_reads_outside, Verif.Charset.Utf16Props.encode_be, Verif.Charset.Utf16Props.be_roundtrip_partial, Verif.Charset.Utf16Props.be_own_output_reads_outside, Verif.Charset.Utf16Props.be_truncated, Verif.Charset.Utf16Props.le_decode_partial, Verif.Charset.Utf16Props.le_roundtrip_empty, Verif.Charset.Utf16Props.bom_ignored, Verif.Charset.Utf16Props.be_mark_partial, Verif.Charset.Utf16Props.be_mark_truncated, Verif.Charset.Utf16Props.le_mark_partial, Verif.Charset.Utf16Props.utf8_mark_throws, Verif.Charset.PageProps.win1252_roundtrip, Verif.Charset.PageProps.win1252_text_roundtrip, Verif.Charset.PageProps.win1252_standard_partial, Verif.Charset.PageProps.win1252_circumflex, Verif.Charset.PageProps.raw_roundtrip, Verif.Charset.PageProps.raw_sign_extends, Verif.Charset.PageProps.mac_roundtrip_partial, Verif.Charset.PageProps.mac_violations, Verif.Charset.PageProps.mac_decode_standard_partial, Verif.Charset.PageProps.mac_encode_standard, Verif.Str.UndoProps.undo_redo, Verif.Undo.Props.change_discards_redo, Verif.LinkedList.Props.reads_pure, Verif.LinkedList.Props.swapped_once, Verif.Num.IntegerProps.fromHex_spec, Verif.Num.IntegerProps.hex_negative, Verif.Num.IntegerProps.toRomanString_spec, Verif.Num.IntegerProps.roman_value, Verif.Num.IntegerProps.roman_injective, Verif.Num.IntegerProps.roman_nonpositive, Verif.Num.IntegerProps.latinValue_unique, Verif.Num.IntegerProps.latin_26, Verif.Num.IntegerProps.latin_collision, Verif.Diff.Props.reportOp_right, Verif.Diff.Props.added_object_wrong, Verif.Xml.attrs_value, Verif.Url.Props.url_umlaut, Verif.Url.Props.url_replaced, Verif.Url.Props.url_bad_percent, Verif.Path.fileIn_trailing, Verif.Path.recompose_relative, Verif.Path.recompose_root, Verif.Prefs.Props.backslash_n_grows, Verif.Prefs.Props.file_loses, Verif.Prefs.Props.reload_reads_behind, Verif.Zip.short_file_rounds, Verif.Zip.garbage_accepted, Verif.Zip.binary_extra_ub, Verif.Zip.short_directory_ub, Verif.Zip.stored_overflow_ub, Verif.Arrays.Props.resize_stale, Verif.Arrays.Props.terminator, Verif.Arrays.Props.get_unchecked, Verif.Arrays.Props.replaceRange_ignores_offset, Verif.Arrays.Props.replaceSelf_eq, Verif.Arrays.Props.init_sized, Verif.Arrays.Props.init_terminated, Verif.Str.ArgProps.argInt_spec, Verif.Str.ArgProps.arg_no_percent, Verif.Str.ArgProps.arg_percent_sign, Verif.Str.ArgProps.arg_leading_zero, Verif.Str.ArgProps.arg_chain, Verif.Lists.StringListProps.append_own_reads_freed, Verif.Math.swap_partial, Verif.Math.swap_self_zeroes, Verif.Str.ArgProps.compareFancy_confuses, Verif.Arrays.Props.array_copy, Verif.RefCount.highBit_race, Verif.Path.readFully_spec, Verif.Path.readFully_schedule, Verif.Path.lastModified_wrong, Verif.Prefs.Props.line_break_not_restored, Verif.Prefs.Props.setValue_cr_reads_behind, Verif.Prefs.Props.setInt_min, Verif.Color.toRgb_cmyk, Verif.Color.isWhite_iff, Verif.Color.grey_cmyk_rgb, Verif.Color.blend_alpha, Verif.Mx.Mat.new_spec, Verif.Mx.Mat.ofVertices_spec, Verif.Mx.Mat.ofValue_spec, Verif.Mx.Mat.copy_spec, Verif.Mx.Mat.set_spec, Verif.Mx.Mat.get_alias, Verif.Mx.Mat.get_outside, Verif.Mx.Mat.mulVec_spec, Verif.Mx.Mat.det_inverse_reject, Verif.Mx.Mat.trans_rejects, Verif.Geom.circleInto_other, Verif.Nurbs.create_spec, Verif.Nurbs.point_ub, Verif.I18n.other_file, Verif.I18n.short_file, Verif.I18n.table_outside, Verif.Property.number_last, Verif.Property.text_last, Verif.Property.is_iff, Verif.Property.variant_make, Verif.Property.toF64_bits, Verif.Property.same_calls, Verif.Property.bool_history, Verif.UndoRef.sample_legal, Verif.UndoRef.sample_careful, Verif.UndoRef.Off.registerOff_nothing, Verif.UndoRef.Off.off_plain, Verif.DoubleFmt.large_numbers, Verif.DoubleText.toDouble_no_number, Verif.DoubleText.zero_returns, Verif.Own.Props.resize_undefined, Verif.Own.Props.array_copy_unwritten, Verif.Own.Props.nurbs_copy_double_free, Verif.Own.Props.hashtable_copy_double_free, Verif.Own.Props.resource_partial, Verif.Own.Props.resource_no_leak, Verif.Thread.Props.mutual_exclusion, Verif.Thread.Props.wakeUp_wakes, Verif.Thread.sleep_deadline, Verif.Thread.sleep_negative, Verif.Thread.sleep_too_long

## propext (149)

Verif.FileIO.Handles.rename_missing, Verif.FileIO.Handles.open_status, Verif.FileIO.Handles.copy_dangles, Verif.FileIO.Handles.close_failed, Verif.FileIO.Handles.closed_undefined, Verif.FileIO.Handles.destroy_leaks, Verif.FileIO.Handles.open_status_lost, Verif.UnitTest.Props.infinity_fails, Verif.UnitTest.Props.nan_fails, Verif.Dirs.missing_arbitrary, Verif.Dirs.dangling, Verif.Dirs.isHidden_spec, Verif.Dirs.list_none, Verif.Dirs.list_missing, Verif.Dirs.race_more, Verif.Geo.anchors_edges, Verif.Geo.move_back_inexact, Verif.Geo.cWise_nan, Verif.Geo.plus_comm, Verif.Geo.place_spec, Verif.Geo.alignBottomLeft_inexact, Verif.Geo.move_is_shift, Verif.Math.Fl.roundtrip_inexact_13, Verif.Math.Fl.halfturn_exact, Verif.Math.Fl.frac_ub, Verif.Math.Single.frac_ub, Verif.Str.AtProps.negative_partial, Verif.Doc.Props.unmarked_without_undo, Verif.Doc.Props.nothing_lost, Verif.Doc.Props.open_transaction_lost, Verif.Doc.Props.transaction_forgotten, Verif.Doc.Props.retain_does_not_keep, Verif.Doc.Props.kept_manager_outlives, Verif.Doc.Changed.saved_in_transaction, Verif.Doc.Changed.inactive_unseen, Verif.Doc.ManProps.abs_undo, Verif.Doc.ManProps.abs_redo, Verif.Doc.ManProps.abs_close, Verif.Doc.ManProps.abs_register, Verif.Doc.ManProps.abs_setMember, Verif.FpVec.solve_residual, Verif.Undo.Typed.negative_zero_lost, Verif.ObjCopy.sample_legal, Verif.FpLen.abs3_signs, Verif.FpLen.abs2_signs, Verif.FpLen.dist_lost, Verif.FpLen.angle_nan, Verif.DateVal.Props.ns_loses_millisecond, Verif.DateVal.Props.ns_toward_reference, Verif.DateVal.Props.ns_nan, Verif.DateVal.Props.ns_infinite, Verif.DateVal.Props.local_is_utc, Verif.DateVal.Props.value, Verif.UndoRef.listSample_result, Verif.Inflate.Count.Props.second_stream_cut, Verif.Str.CharProps.ascii_spec, Verif.Str.CharProps.texts_miss, Verif.Undo.Buffer.registerBuffer_undocumented, Verif.Sort.Props.sorted_unique, Verif.Stack.Props.take_from_empty, Verif.Charset.PageProps.win1252_collisions, Verif.Undo.Props.undo_redo_available, Verif.Undo.Props.undo_in_transaction, Verif.Undo.Props.inner_rollback_ignored, Verif.Undo.Props.commit_inactive_loses, Verif.Undo.Props.nan_does_not_fail, Verif.RefCount.Pool.spec_all, Verif.Math.floor_by_zero, Verif.Diff.Props.deleted_object_wrong, Verif.Diff.Props.modified_exchanged, Verif.Url.Props.urlEncode_injective, Verif.MemStream.not_staysInside, Verif.MemStream.seek_end_ignored, Verif.Path.parent_of_root_child, Verif.Path.extension_no_dot, Verif.Path.extension_dir_dot, Verif.Inflate.incomplete_code_lost, Verif.Inflate.no_distances_ub, Verif.Inflate.crossing_repeat_throws, Verif.Inflate.default_constructor_ub, Verif.Inflate.invalid_not_detected, Verif.Undo.Props.setMemberRange_spec, Verif.Undo.Props.setMemberDouble_spec, Verif.Geo.far_point_lost, Verif.Geo.flat_extents_spoil_z, Verif.Geo.intersection_disjoint, Verif.Geo.intersects_symm, Verif.Geo.union_loses_point, Verif.Geo.intersect_exceeds, Verif.Geo.intersection_exceeds, Verif.Geo.setLeft_inexact, Verif.Math.Fl.isEqual_refl_special, Verif.Math.Fl.isNotEqual_not, Verif.Math.Fl.isGreater_swap, Verif.Math.Fl.nan_comparisons, Verif.Math.Fl.tolerance_overlap, Verif.Math.Fl.isNaN_iff, Verif.Math.Fl.tolerance_gap, Verif.Math.Fl.round_half_below, Verif.Math.Fl.round_ub, Verif.Math.Fl.interpolate_end, Verif.Math.Fl.probability_bounds, Verif.Math.random_overflow, Verif.Math.Single.interpolate_end, Verif.Math.Fl.random01Win_one, Verif.Arrays.Props.array_get_set, Verif.Undo.Props.close_notifies, Verif.Color.setters, Verif.Color.toRgb_idem, Verif.Color.toCmyk_idem, Verif.Color.black_to_cmyk, Verif.Color.rgb_cmyk_rgb_differs, Verif.Color.toGreyScale_cases, Verif.Color.toGreyScale_idem, Verif.Color.blend_nothing_darkens, Verif.Color.blend_transparent_ub, Verif.Color.blend_grey, Verif.Color.hsv_round_trip_differs, Verif.Color.fromHsv_outside, Verif.Mx.Mat.insertAt_negative, Verif.Mx.Mat.add_rectangular, Verif.Mx.Mat.add_mismatched, Verif.Mx.Mat.mul_rejects, Verif.Mx.Mat.inverse_singular_double, Verif.Mx.Mat.det_double_cancels, Verif.Vtx.MeasureProps.isValid_fp, Verif.Vtx.MeasureProps.isValid2_fp, Verif.Geom.checkAngle_endless, Verif.I18n.sample_ok, Verif.Guess.alternatives_uninitialised, Verif.Property.fresh, Verif.Property.variant_copy, Verif.Property.valueEquals_iff, Verif.Property.valueEquals_equivalence, Verif.Property.setValue_equal, Verif.Property.number_history, Verif.UndoRef.sample_result, Verif.UndoRef.open_transaction_leaks, Verif.UndoRef.unbacked_dangles, Verif.UndoRef.undone_add_leaks, Verif.UndoRef.remove_destroys, Verif.UndoRef.remove_undo_keeps, Verif.UndoRef.Off.undo_after_untracked, Verif.Own.Props.chararray_copy_null, Verif.Own.Props.stream_copy, Verif.Own.Props.resource_leak, Verif.Thread.Props.lost_interrupt, Verif.Thread.Props.lost_wakeup, Verif.Thread.Props.alive_late
