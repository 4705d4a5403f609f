{
 "claims": [
  {
   "property": "C01",
   "status": "proved",
   "theorems": [
    "Verif.Props.LineReader.readLine_chunk_independent"
   ],
   "note": ""
  },
  {
   "property": "C02",
   "status": "proved",
   "theorems": [
    "Verif.Props.LineDefault.default_bounded",
    "Verif.Props.LineDefault.default_legal",
    "Verif.Props.LineDefault.long_refused",
    "Verif.Props.LineDefault.default_refused",
    "Verif.Props.LineReader.readLine_bounded",
    "Verif.Props.LineReader.readLine_legal",
    "Verif.Props.LineReader.maxLine_not_exact",
    "Verif.Props.LineReader.exhausted_desync"
   ],
   "note": "readLine_bounded: upper bound in every history. readLine_legal: a legal line, or any line without limit, is returned."
  },
  {
   "property": "C03",
   "status": "proved",
   "theorems": [
    "Verif.Props.LineReader.readLine_hooks_filter"
   ],
   "note": ""
  },
  {
   "property": "C04",
   "status": "proved",
   "theorems": [
    "Verif.Props.LineReader.readLine_fault_tail",
    "Verif.Props.LineReader.error_splits_line"
   ],
   "note": ""
  },
  {
   "property": "C05",
   "status": "proved",
   "theorems": [
    "Verif.Props.LineReader.session_exact",
    "Verif.Props.LineReader.enableZlib_failure_sticks"
   ],
   "note": "Any interleaving of lines, compressed sections and binary sections; the inflater is an abstract byte-consuming machine."
  },
  {
   "property": "C06",
   "status": "proved",
   "theorems": [
    "Verif.Props.LineReader.session_exact"
   ],
   "note": "Binary sizes below 2^63."
  },
  {
   "property": "C07",
   "status": "proved",
   "theorems": [
    "Verif.Props.LineReader.closed_refuses",
    "Verif.Props.LineReader.closed_for_ever"
   ],
   "note": ""
  },
  {
   "property": "C08",
   "status": "proved",
   "theorems": [
    "Verif.Props.LineWriter.sent_prefix"
   ],
   "note": ""
  },
  {
   "property": "C09",
   "status": "proved",
   "theorems": [
    "Verif.Props.LineWriter.error_recorded",
    "Verif.Props.LineWriter.enable_error_recorded",
    "Verif.Props.LineWriter.disable_error_recorded",
    "Verif.Props.LineWriter.error_sticks",
    "Verif.Props.LineWriter.write_error_not_sticky",
    "Verif.Props.LineWriter.close_sends_after_error"
   ],
   "note": "Findings: errors of the unbuffered Write are not sticky; Close sends buffered data after a recorded error."
  },
  {
   "property": "C10",
   "status": "proved",
   "theorems": [
    "Verif.Props.LineWriter.flushed_wire",
    "Verif.Props.LineWriter.closed_wire",
    "Verif.Props.LineWriter.stored_law"
   ],
   "note": "zlib abstract, with a law shown satisfiable by stored_law."
  },
  {
   "property": "C100",
   "status": "proved",
   "theorems": [
    "Verif.Props.LineHooks.hooks_by_hand",
    "Verif.Props.LineHooks.stateful_hooks",
    "Verif.Props.LineHooks.every_line_shown",
    "Verif.Props.LineHooks.zlib_hook",
    "Verif.Props.LineHooks.closing_hook_panics"
   ],
   "note": "A hook that closes the reader and drops the line makes ReadLine panic (closing_hook_panics); hence the hypothesis that hooks keep the reader open."
  },
  {
   "property": "C101",
   "status": "proved",
   "theorems": [
    "Verif.Props.NmdcUnmarshal.unmarshal_first",
    "Verif.Props.NmdcUnmarshal.unmarshal_never_eof",
    "Verif.Props.NmdcUnmarshal.first_covers"
   ],
   "note": ""
  },
  {
   "property": "C102",
   "status": "proved",
   "theorems": [
    "Verif.Props.LineWriterMemory.calls_are_values",
    "Verif.Props.LineWriterMemory.panics_are_values",
    "Verif.Props.LineWriterMemory.array_kept",
    "Verif.Props.LineWriterMemory.callers_memory_kept",
    "Verif.Props.LineWriterMemory.buffer_used_again",
    "Verif.Props.LineWriterMemory.next_message_overwrites",
    "Verif.Props.LineWriterMemory.kept_message_changes"
   ],
   "note": ""
  },
  {
   "property": "C103",
   "status": "proved",
   "theorems": [
    "Verif.Props.RealAddresses.normal_form",
    "Verif.Props.RealAddresses.no_percent",
    "Verif.Props.RealAddresses.adc_plain",
    "Verif.Props.RealAddresses.nmdc_plain",
    "Verif.Props.RealAddresses.no_scheme",
    "Verif.Props.RealAddresses.adc_name_refused",
    "Verif.Props.RealAddresses.zone_lost",
    "Verif.Props.RealAddresses.trailing_slash_matters"
   ],
   "note": ""
  },
  {
   "property": "C104",
   "status": "proved",
   "theorems": [
    "Verif.Props.AdcLeft.fill_agrees",
    "Verif.Props.AdcLeft.fill_type",
    "Verif.Props.AdcLeft.outcome_free",
    "Verif.Props.AdcLeft.refused_left",
    "Verif.Props.AdcLeft.decode_to",
    "Verif.Props.AdcLeft.refused_shows"
   ],
   "note": "refused_shows is a finding: after a refused user command the next one has a longer path."
  },
  {
   "property": "C105",
   "status": "proved",
   "theorems": [
    "Verif.Props.LineHooksMemory.line_by_hand",
    "Verif.Props.LineHooksMemory.panics_by_hand",
    "Verif.Props.LineHooksMemory.program_by_hand",
    "Verif.Props.LineHooksMemory.lines_of_stream"
   ],
   "note": "hooks do what a program can do (Program), do not close the reader or register hooks (KeepsOpen), and for one direction of line_by_hand give the same result with more fuel (Steady)."
  },
  {
   "property": "C106",
   "status": "proved",
   "theorems": [
    "Verif.Props.AdcAnyMessage.packet_line",
    "Verif.Props.AdcAnyMessage.failed_packet",
    "Verif.Props.AdcAnyMessage.nil_packet",
    "Verif.Props.AdcAnyMessage.struct_text",
    "Verif.Props.AdcAnyMessage.struct_failed",
    "Verif.Props.AdcAnyMessage.struct_known",
    "Verif.Props.AdcAnyMessage.known_message",
    "Verif.Props.AdcAnyMessage.no_trace",
    "Verif.Props.AdcAnyMessage.same_wire",
    "Verif.Props.AdcAnyMessage.read_back",
    "Verif.Props.AdcAnyMessage.newline_forges"
   ],
   "note": "newline_forges is a finding: nothing keeps a payload with a newline from being sent as two packets."
  },
  {
   "property": "C107",
   "status": "proved",
   "theorems": [
    "Verif.Props.NmdcOwnWriter.line_form",
    "Verif.Props.NmdcOwnWriter.failed",
    "Verif.Props.NmdcOwnWriter.known_message",
    "Verif.Props.NmdcOwnWriter.refused",
    "Verif.Props.NmdcOwnWriter.accepted",
    "Verif.Props.NmdcOwnWriter.hooks",
    "Verif.Props.NmdcOwnWriter.same_wire",
    "Verif.Props.NmdcOwnWriter.delimiter_forges"
   ],
   "note": "delimiter_forges is a finding: nothing keeps a payload with a delimiter from being sent as two messages. So is the case of line_form without name and payload."
  },
  {
   "property": "C108",
   "status": "proved",
   "theorems": [
    "Verif.Props.NmdcOwnReader.read_msg",
    "Verif.Props.NmdcOwnReader.unmarshal",
    "Verif.Props.NmdcOwnReader.session",
    "Verif.Props.NmdcOwnReader.read_to",
    "Verif.Props.NmdcOwnReader.read_to_any",
    "Verif.Props.NmdcOwnReader.nameless",
    "Verif.Props.NmdcOwnReader.left_keepsRaw",
    "Verif.Props.NmdcOwnCallbacks.callbacks"
   ],
   "note": "read_msg, unmarshal and session assume no callback for failed decodings and no hook that sees messages (these would see the caller's types, and are the subject of callbacks); read_to and read_to_any assume no callbacks at all. nameless is a finding."
  },
  {
   "property": "C109",
   "status": "proved",
   "theorems": [
    "Verif.Props.NmdcOwnConn.connection"
   ],
   "note": ""
  },
  {
   "property": "C11",
   "status": "proved",
   "theorems": [
    "Verif.Props.LineDuplex.lines_arrive",
    "Verif.Props.LineDuplex.plain_lines_arrive"
   ],
   "note": ""
  },
  {
   "property": "C110",
   "status": "proved",
   "theorems": [
    "Verif.Props.AdcOwn.value_iff",
    "Verif.Props.AdcOwn.fields_iff",
    "Verif.Props.AdcOwn.fields_failed",
    "Verif.Props.AdcOwn.received",
    "Verif.Props.AdcOwn.int_round",
    "Verif.Props.AdcOwn.registered_types",
    "Verif.Props.AdcOwn.decode_packet",
    "Verif.Props.AdcOwn.decode_to",
    "Verif.Props.AdcOwn.packet",
    "Verif.Props.AdcOwn.library_messages",
    "Verif.Props.AdcOwn.int16_cut",
    "Verif.Props.AdcOwn.unsigned_refused",
    "Verif.Props.AdcOwn.unexported_panics",
    "Verif.Props.AdcOwn.pointer_type",
    "Verif.Props.AdcOwn.raw_type"
   ],
   "note": "strconv.ParseFloat is a parameter; library_messages assumes that a float is converted to a number of 64 bits. The last five theorems are findings."
  },
  {
   "property": "C111",
   "status": "proved",
   "theorems": [
    "Verif.Props.AdcOwnConn.connection",
    "Verif.Props.AdcOwnConn.values_arrive",
    "Verif.Props.AdcOwnConn.own_value",
    "Verif.Props.AdcOwnConn.own_message",
    "Verif.Props.AdcOwnConn.library_calls",
    "Verif.Props.AdcOwnConn.fatal_line"
   ],
   "note": "Methods of the sender only add to the buffer (Plain, see C106). Packets have no NUL or line feed and a feature packet can be told from its selectors (C43)."
  },
  {
   "property": "C112",
   "status": "proved",
   "theorems": [
    "Verif.Props.NmdcRelay.any_payload",
    "Verif.Props.NmdcRelay.passed_on",
    "Verif.Props.NmdcRelay.any_hops",
    "Verif.Props.NmdcRelay.forged",
    "Verif.Props.NmdcRelay.panics_iff"
   ],
   "note": "Fresh values and no text encoding on both sides. `any_payload` holds for payloads with escapes as well; the list of exceptions is for payloads without. Each exception is shown on a concrete payload."
  },
  {
   "property": "C113",
   "status": "proved",
   "theorems": [
    "Verif.Props.Shown.flag_isSet",
    "Verif.Props.Shown.flags",
    "Verif.Props.Shown.type_is",
    "Verif.Props.Shown.types",
    "Verif.Props.Shown.errorText_injective",
    "Verif.Props.Shown.field_injective",
    "Verif.Props.Shown.chat_sent",
    "Verif.Props.Shown.chat_received",
    "Verif.Props.Shown.chat_shown_differs"
   ],
   "note": "Findings: FlagTLS is a set of two flags, and IsSet holds if one of them is set; a text without a name that begins with '<' is shown as a message of the user it names, and lines with '<> ' before them are read so."
  },
  {
   "property": "C114",
   "status": "proved",
   "theorems": [
    "Verif.Props.PemFiles.certificate_file",
    "Verif.Props.PemFiles.file_blocks",
    "Verif.Props.PemFiles.file_unique",
    "Verif.Props.PemFiles.file_exists",
    "Verif.Props.PemFiles.joined_lost"
   ],
   "note": "`joined_lost` is a finding."
  },
  {
   "property": "C115",
   "status": "proved",
   "theorems": [
    "Verif.Props.PrivateIds.new_pid",
    "Verif.Props.PrivateIds.new_pid_full",
    "Verif.Props.PrivateIds.new_pid_distinct",
    "Verif.Props.PrivateIds.short_read_unnoticed",
    "Verif.Props.PrivateIds.cid_of_pid",
    "Verif.Props.PrivateIds.cid_other_size",
    "Verif.Props.PrivateIds.same_cid",
    "Verif.Props.PrivateIds.pid_text"
   ],
   "note": "Tiger is a parameter; C116 has the function. `short_read_unnoticed` is a finding; the source of the operating system does not do it."
  },
  {
   "property": "C116",
   "status": "proved",
   "theorems": [
    "Verif.Props.TigerPieces.pieces",
    "Verif.Props.TigerPieces.series",
    "Verif.Props.TigerPieces.hash_bytes",
    "Verif.Props.TigerPieces.cid_tiger",
    "Verif.Props.KeyPrintSha.print_form",
    "Verif.Props.KeyPrintSha.verify_sha256"
   ],
   "note": "The hash functions come from packages that are not part of the repository; they are modelled from their published definitions, with the repository's test vectors as a check."
  },
  {
   "property": "C117",
   "status": "proved",
   "theorems": [
    "Verif.Props.AdcFloats.parse_iff",
    "Verif.Props.AdcFloats.integer_field",
    "Verif.Props.AdcFloats.whole_exact",
    "Verif.Props.AdcFloats.exact_whole",
    "Verif.Props.AdcFloats.formats",
    "Verif.Props.AdcFloats.fraction_exact",
    "Verif.Props.AdcFloats.received_again_real",
    "Verif.Props.AdcFloats.library_messages_real",
    "Verif.Props.AdcFloats.overflow_accepted",
    "Verif.Props.AdcFloats.machines_differ",
    "Verif.Props.AdcFloats.digits_lost",
    "Verif.Props.AdcFloats.nan_accepted"
   ],
   "note": "strconv.ParseFloat as in Go 1.13 and later; the conversion is modelled as documented (the nearest number), not the algorithms that compute it. Findings: a positive number that does not fit becomes negative on amd64 and another number on arm64; a text with a point loses digits above 2^53; NaN is accepted."
  },
  {
   "property": "C118",
   "status": "proved",
   "theorems": [
    "Verif.Props.CodePages.encode_iff",
    "Verif.Props.CodePages.encodable_iff",
    "Verif.Props.CodePages.page_lossless",
    "Verif.Props.CodePages.page_swap",
    "Verif.Props.CodePages.text_page",
    "Verif.Props.CodePages.name_page",
    "Verif.Props.CodePages.passed_on",
    "Verif.Props.CodePages.windows1251_proper",
    "Verif.Props.CodePages.windows1252_proper",
    "Verif.Props.CodePages.reference_garbled",
    "Verif.Props.CodePages.name_not_sent"
   ],
   "note": "The tables are those of the WHATWG encoding standard, as in x/text; that package is not part of the repository. Two findings: character references are replaced before decoding, and the limit on names is checked on different encodings."
  },
  {
   "property": "C119",
   "status": "proved",
   "theorems": [
    "Verif.Props.NmdcValid.valid_read",
    "Verif.Props.NmdcValid.valid_new",
    "Verif.Props.NmdcValid.valid_left",
    "Verif.Props.NmdcValid.read_msg",
    "Verif.Props.NmdcValid.read_msg_to",
    "Verif.Props.NmdcValid.read_msg_to_any",
    "Verif.Props.NmdcValid.path_not_decoded",
    "Verif.Props.NmdcValid.tag_not_checked"
   ],
   "note": "texts lists the fields it is about. Findings: the path of a search result is checked but not decoded, and the tag of MyINFO is neither."
  },
  {
   "property": "C12",
   "status": "partial",
   "theorems": [
    "Verif.Props.LineWriter.no_panic_partial",
    "Verif.Props.LineWriter.enable_bad_level_panics",
    "Verif.Props.LineWriter.double_close_panics",
    "Verif.Props.LineWriterPanic.close_panics_iff",
    "Verif.Props.LineWriterPanic.other_panics",
    "Verif.Props.LineWriterPanic.returns_or_panics",
    "Verif.Props.LineWriterPanic.half_enabled_level"
   ],
   "note": "False as stated: an unknown level leaves the writer in a state where Flush, DisableZlib and Close panic. Proved for levels -2..9 and one Close; for all other histories it is proved exactly when Close panics, that only Flush, DisableZlib and Write can panic besides, and after what; nothing ever hangs."
  },
  {
   "property": "C120",
   "status": "proved",
   "theorems": [
    "Verif.Props.ZlibFormat.stream_read",
    "Verif.Props.ZlibFormat.part_read",
    "Verif.Props.ZlibFormat.code_prefix_free",
    "Verif.Props.ZlibFormat.accepted_sum",
    "Verif.Props.ZlibFormat.one_byte",
    "Verif.Props.ZlibFormat.fits",
    "Verif.Props.ZlibFormat.lines_arrive",
    "Verif.Props.ZlibFormat.damaged_delivered",
    "Verif.Props.ZlibTables.code_exists",
    "Verif.Props.ZlibTables.code_words",
    "Verif.Props.ZlibTables.fixed_codes",
    "Verif.Props.ZlibTables.length_table",
    "Verif.Props.ZlibTables.distance_table",
    "Verif.Props.ZlibTables.checksum",
    "Verif.Props.ZlibConn.nmdc",
    "Verif.Props.ZlibConn.adc",
    "Verif.Props.ZlibTables.length_order"
   ],
   "note": "Simplified: a stream that asks for a dictionary is refused before the name of the dictionary is read, and a code word is refused at the bit that makes it impossible. Finding: lines of a damaged section are delivered before the checksum is compared."
  },
  {
   "property": "C121",
   "status": "proved",
   "theorems": [
    "Verif.Props.ZlibRefuse.broken_refused",
    "Verif.Props.ZlibRefuse.header_iff",
    "Verif.Props.ZlibRefuse.one_end",
    "Verif.Props.ZlibCut.broken_unfinished",
    "Verif.Props.ZlibCut.wrong_sum_unfinished",
    "Verif.Props.ZlibCut.honest",
    "Verif.Props.ZlibCut.stays_inside",
    "Verif.Props.ZlibWant.sum_want",
    "Verif.Props.ZlibWant.len_want",
    "Verif.Props.ZlibWant.data_want",
    "Verif.Props.ZlibWant.block_want",
    "Verif.Props.ZlibWant.error_with_byte"
   ],
   "note": "The list of faults is not complete; C122 says exactly what is accepted."
  },
  {
   "property": "C122",
   "status": "proved",
   "theorems": [
    "Verif.Props.ZlibExact.accepted_iff",
    "Verif.Props.ZlibExact.one_meaning",
    "Verif.Props.ZlibExact.unfinished_iff"
   ],
   "note": "The format shares the definitions of codes, tables and checksum with the decompressor; C120 states them on their own."
  },
  {
   "property": "C123",
   "status": "proved",
   "theorems": [
    "Verif.Props.Entities.in_place",
    "Verif.Props.Entities.not_longer",
    "Verif.Props.Entities.text_bound",
    "Verif.Props.Entities.name_bound",
    "Verif.Props.Entities.every_name",
    "Verif.Props.Entities.every_pair",
    "Verif.Props.Entities.every_old_name",
    "Verif.Props.Entities.old_name_same",
    "Verif.Props.Entities.name_inside",
    "Verif.Props.Entities.unknown_kept",
    "Verif.Props.Entities.wide_names_kept",
    "Verif.Props.Entities.wide_name_panics"
   ],
   "note": "The tables are those of HTML 5 (2138 names of one character and 91 of two), generated from the standard list and not from the source of package html; that the two agree apart from nGt; and nLt; is read, not proved."
  },
  {
   "property": "C124",
   "status": "proved",
   "theorems": [
    "Verif.Props.TreeMemory.calls_apart",
    "Verif.Props.TreeMemory.call_ends",
    "Verif.Props.TreeMemory.call_alone",
    "Verif.Props.TreeMemory.scratch_ignored"
   ],
   "note": "A step is a turn of the inner loop; the copy of the leaves is one step. Nobody else writes to the leaves during the calls."
  },
  {
   "property": "C125",
   "status": "proved",
   "theorems": [
    "Verif.Props.ListMemory.path_value",
    "Verif.Props.ListMemory.path_others",
    "Verif.Props.ListMemory.path_copy",
    "Verif.Props.ListMemory.path_twice",
    "Verif.Props.ListMemory.fields_value",
    "Verif.Props.ListMemory.fields_copy",
    "Verif.Props.ListMemory.fields_others",
    "Verif.Props.ListMemory.new_variable",
    "Verif.Props.ListMemory.copy_changes",
    "Verif.Props.ListMemory.refused_changes",
    "Verif.Props.ListMemory.paths_overwrite",
    "Verif.Props.ListMemory.program_values"
   ],
   "note": "The strings in the lists are values (Go strings do not change). program_values is about programs of any length over any number of variables; the calls are one after another."
  },
  {
   "property": "C126",
   "status": "proved",
   "theorems": [
    "Verif.Props.FeatureMemory.step_effect",
    "Verif.Props.FeatureMemory.step_share",
    "Verif.Props.FeatureMemory.own_values",
    "Verif.Props.FeatureMemory.copy_follows"
   ],
   "note": "One goroutine. A call of UnmarshalADC is one step. `copy_follows` is a finding."
  },
  {
   "property": "C13",
   "status": "proved",
   "theorems": [
    "Verif.Props.LineWriter.hook_drop",
    "Verif.Props.LineWriter.hook_accept",
    "Verif.Props.LineWriter.runHooks_spec",
    "Verif.Props.LineWriter.flushed_wire",
    "Verif.Props.LineWriter.closed_wire"
   ],
   "note": ""
  },
  {
   "property": "C14",
   "status": "proved",
   "theorems": [
    "Verif.Props.NmdcText.text_roundtrip",
    "Verif.Props.NmdcText.text_clean",
    "Verif.Props.NmdcText.text_accepted",
    "Verif.Props.NmdcText.text_legacy_lost"
   ],
   "note": "For every named-entity table that has amp, lt and gt."
  },
  {
   "property": "C15",
   "status": "proved",
   "theorems": [
    "Verif.Props.NmdcText.name_roundtrip",
    "Verif.Props.NmdcText.name_clean",
    "Verif.Props.NmdcText.name_encoder_refuses",
    "Verif.Props.NmdcText.name_decoder_refuses",
    "Verif.Props.NmdcText.name_limit_asymmetric",
    "Verif.Props.NmdcText.decoded_name_may_be_forbidden"
   ],
   "note": "Findings: the length limit is applied before escaping by the encoder and after it by the decoder; escapes can put forbidden characters into a decoded name."
  },
  {
   "property": "C16",
   "status": "partial",
   "theorems": [
    "Verif.Props.NmdcLines.one_line_partial",
    "Verif.Props.NmdcLines.one_line_always",
    "Verif.Props.NmdcLines.line_bars",
    "Verif.Props.NmdcLines.injection",
    "Verif.Props.NmdcLines.encoder_panics",
    "Verif.Props.NmdcLines.empty_chat_panics"
   ],
   "note": "False as stated: fields that are written without escaping can hold the delimiter. line_bars says exactly when; one_line_always names the types for which it cannot happen. An empty Supports list and an empty chat message make the encoder panic (encoder_panics: exactly these)."
  },
  {
   "property": "C17",
   "status": "proved",
   "theorems": [
    "Verif.Props.NmdcChat.chat_roundtrip",
    "Verif.Props.NmdcChat.chat_text_misread",
    "Verif.Props.NmdcChat.chat_decoder_drops_byte"
   ],
   "note": "Findings: a text beginning with < sent without a name is misread; the decoder drops a byte after a name it finds behind a >."
  },
  {
   "property": "C18",
   "status": "proved",
   "theorems": [
    "Verif.Props.NmdcChat.private_roundtrip",
    "Verif.Props.NmdcChat.private_misread",
    "Verif.Props.NmdcChat.mcto_roundtrip"
   ],
   "note": "Finding: a recipient holding \" From: \" is misread."
  },
  {
   "property": "C19",
   "status": "proved",
   "theorems": [
    "Verif.Props.NmdcChat.userCommand_roundtrip",
    "Verif.Props.NmdcChat.userCommand_half",
    "Verif.Props.NmdcChat.userCommand_trimmed"
   ],
   "note": "Findings: a command with only a path or only a command text is refused by the decoder; trailing white space is lost."
  },
  {
   "property": "C20",
   "status": "proved",
   "theorems": [
    "Verif.Props.NmdcCtm.ctm_accepted",
    "Verif.Props.NmdcCtm.ctm_roundtrip",
    "Verif.Props.NmdcCtm.ctm_flag_misread",
    "Verif.Props.NmdcCtm.revctm_roundtrip"
   ],
   "note": "Finding: an address ending in a flag letter is misread."
  },
  {
   "property": "C21",
   "status": "proved",
   "theorems": [
    "Verif.Props.NmdcSimple.value_roundtrip",
    "Verif.Props.NmdcSimple.raw_roundtrip",
    "Verif.Props.NmdcSimple.errMsg_roundtrip",
    "Verif.Props.NmdcSimple.failOver_roundtrip",
    "Verif.Props.NmdcSimple.failOver_empty",
    "Verif.Props.NmdcSimple.supports_roundtrip",
    "Verif.Props.NmdcSimple.supports_empty_panics"
   ],
   "note": ""
  },
  {
   "property": "C22",
   "status": "proved",
   "theorems": [
    "Verif.Props.NmdcSimple.hubInfo_roundtrip",
    "Verif.Props.NmdcSimple.hubInfo_soft_split"
   ],
   "note": ""
  },
  {
   "property": "C23",
   "status": "proved",
   "theorems": [
    "Verif.Props.NmdcSimple.lock_roundtrip"
   ],
   "note": ""
  },
  {
   "property": "C24",
   "status": "proved",
   "theorems": [
    "Verif.Props.NmdcSimple.names_roundtrip",
    "Verif.Props.NmdcSimple.names_one_empty",
    "Verif.Props.NmdcSimple.userIP_roundtrip",
    "Verif.Props.NmdcSimple.userIP_empty"
   ],
   "note": ""
  },
  {
   "property": "C25",
   "status": "proved",
   "theorems": [
    "Verif.Props.NmdcSimple.adcGet_roundtrip",
    "Verif.Props.NmdcSimple.adcGet_length_wraps",
    "Verif.Props.NmdcSimple.adcSnd_roundtrip",
    "Verif.Props.NmdcSimple.direction_roundtrip",
    "Verif.Props.NmdcSimple.direction_range"
   ],
   "note": ""
  },
  {
   "property": "C26",
   "status": "proved",
   "theorems": [
    "Verif.Props.NmdcSearch.search_roundtrip",
    "Verif.Props.NmdcSearch.search_fixpoint"
   ],
   "note": ""
  },
  {
   "property": "C27",
   "status": "proved",
   "theorems": [
    "Verif.Props.NmdcSearch.sr_roundtrip",
    "Verif.Props.NmdcSearch.sr_path_escaped",
    "Verif.Props.NmdcSearch.sr_file_misread"
   ],
   "note": "Findings: the decoder does not unescape the path; a file whose name ends in number/number is read as a directory."
  },
  {
   "property": "C28",
   "status": "proved",
   "theorems": [
    "Verif.Props.NmdcSearch.sa_roundtrip",
    "Verif.Props.NmdcSearch.sp_roundtrip"
   ],
   "note": ""
  },
  {
   "property": "C29",
   "status": "proved",
   "theorems": [
    "Verif.Props.NmdcMyInfo.myInfo_roundtrip",
    "Verif.Props.NmdcMyInfo.decoded_map_order",
    "Verif.Props.NmdcMyInfo.flag_dollar_refused",
    "Verif.Props.NmdcMyInfo.flag_bar_written",
    "Verif.Props.NmdcMyInfo.extra_key_changed",
    "Verif.Props.NmdcMyInfo.bad_size_is_zero",
    "Verif.Props.NmdcMyInfo.stale_without_tag"
   ],
   "note": "For every iteration order of the map of extra fields. Findings: flag bytes $ and |; one-letter keys; bad share size; stale fields without a tag."
  },
  {
   "property": "C30",
   "status": "partial",
   "theorems": [
    "Verif.Props.NmdcMessages.decoders_never_panic_partial",
    "Verif.Props.NmdcMessages.search_decoder_panics",
    "Verif.Props.NmdcPanics.decoders_panic_iff",
    "Verif.Props.NmdcPanics.search_panics_iff",
    "Verif.Props.NmdcMessages.newMessage_typ",
    "Verif.Props.NmdcMessages.newMessage_registered",
    "Verif.Props.NmdcMessages.newMessage_raw",
    "Verif.Props.NmdcMessages.registered_nodup"
   ],
   "note": "False as stated: the Search decoder panics on a TTH value of 40 characters or more. decoders_panic_iff gives exactly the messages and payloads that panic."
  },
  {
   "property": "C31",
   "status": "proved",
   "theorems": [
    "Verif.Props.NmdcText.text_utf8",
    "Verif.Props.NmdcText.name_utf8",
    "Verif.Props.NmdcText.text_unknown_encoding"
   ],
   "note": ""
  },
  {
   "property": "C32",
   "status": "proved",
   "theorems": [
    "Verif.Props.NmdcReader.dispatch",
    "Verif.Props.NmdcReader.classify_of",
    "Verif.Props.NmdcReader.lines_covered",
    "Verif.Props.NmdcReader.read_error",
    "Verif.Props.NmdcReader.conversation",
    "Verif.Props.NmdcReader.conversation_stream",
    "Verif.Props.NmdcReaderHooks.remote_panic",
    "Verif.Props.NmdcReaderHooks.remote_panic_search"
   ],
   "note": "Verif/Spec/NmdcLine.lean defines what a line is without the parser; dispatch says what ReadMsg returns for each verdict, conversation for whole streams. remote_panic_search: the panic of C30 is reachable by a peer."
  },
  {
   "property": "C33",
   "status": "proved",
   "theorems": [
    "Verif.Props.NmdcReader.read_to",
    "Verif.Props.NmdcReader.read_to_any",
    "Verif.Props.NmdcReaderHooks.raw_target_refuses",
    "Verif.Props.NmdcReaderHooks.no_target_panics"
   ],
   "note": "Targets are distinct non-nil values. Finding: a RawMessage target of ReadMsgToAny captures every line and then refuses it."
  },
  {
   "property": "C34",
   "status": "proved",
   "theorems": [
    "Verif.Props.NmdcConn.connection",
    "Verif.Props.NmdcConn.command_travels",
    "Verif.Props.NmdcConn.chat_travels",
    "Verif.Props.NmdcConn.registered_travels",
    "Verif.Props.NmdcConn.chat_message_travels",
    "Verif.Props.NmdcConn.unmarshal_marshal"
   ],
   "note": "connection: with compressed phases, keep-alives and any calls of Flush in between. The condition on a message (Travels) is met by every message with a round trip (registered_travels, chat_message_travels)."
  },
  {
   "property": "C35",
   "status": "proved",
   "theorems": [
    "Verif.Props.NmdcNumbers.atoi_exact",
    "Verif.Props.NmdcNumbers.uint_exact",
    "Verif.Props.NmdcNumbers.numbers_no_panic",
    "Verif.Props.NmdcNumbers.number_roundtrip",
    "Verif.Props.NmdcNumbers.int_roundtrip"
   ],
   "note": ""
  },
  {
   "property": "C36",
   "status": "proved",
   "theorems": [
    "Verif.Props.NmdcSimple.rawKey_spec",
    "Verif.Props.NmdcSimple.key_defined",
    "Verif.Props.NmdcSimple.key_clean",
    "Verif.Props.NmdcSimple.key_unescape",
    "Verif.Props.NmdcSimple.key_ambiguous",
    "Verif.Props.NmdcSimple.rawKey_injective"
   ],
   "note": ""
  },
  {
   "property": "C37",
   "status": "proved",
   "theorems": [
    "Verif.Props.NmdcExtensions.extensions_are_sets",
    "Verif.Props.NmdcExtensions.set_inserts",
    "Verif.Props.NmdcExtensions.sorted_unique",
    "Verif.Props.NmdcExtensions.list_order_independent",
    "Verif.Props.NmdcExtensions.supports_intersect",
    "Verif.Props.NmdcExtensions.supports_intersect_mem",
    "Verif.Props.NmdcExtensions.supports_intersect_repeats"
   ],
   "note": "For every iteration order of the map. Findings: Set on a nil map panics; Supports.Intersect keeps repetitions."
  },
  {
   "property": "C38",
   "status": "partial",
   "theorems": [
    "Verif.Props.NmdcMessages.reuse_partial",
    "Verif.Props.NmdcMessages.reuse_stale"
   ],
   "note": "False as stated for ten types; for each of them reuse_stale has a counterexample, and for every other type reuse_partial is the full claim. C97 says exactly which fields keep their value."
  },
  {
   "property": "C39",
   "status": "proved",
   "theorems": [
    "Verif.Props.AdcText.unescape_escape",
    "Verif.Props.AdcText.escape_clean",
    "Verif.Props.AdcText.escape_injective",
    "Verif.Props.AdcText.string_roundtrip"
   ],
   "note": ""
  },
  {
   "property": "C40",
   "status": "proved",
   "theorems": [
    "Verif.Props.AdcSmall.sid_from_string",
    "Verif.Props.Identifiers.encode_is_base32",
    "Verif.Props.Identifiers.hash_roundtrip",
    "Verif.Props.Identifiers.hash_injective",
    "Verif.Props.Identifiers.cid_roundtrip",
    "Verif.Props.Identifiers.sid_text",
    "Verif.Props.Identifiers.sid_injective",
    "Verif.Props.Identifiers.decode_not_injective"
   ],
   "note": ""
  },
  {
   "property": "C41",
   "status": "partial",
   "theorems": [
    "Verif.Props.Identifiers.fromBase32_ne_panic",
    "Verif.Props.Identifiers.unmarshalBase32_ne_panic_partial",
    "Verif.Props.Identifiers.unmarshalBase32_panic_iff",
    "Verif.Props.Identifiers.unmarshalBase32_panics"
   ],
   "note": "False as stated: UnmarshalBase32 panics exactly on texts starting with 40 characters of the alphabet (line ends aside)."
  },
  {
   "property": "C42",
   "status": "proved",
   "theorems": [
    "Verif.Props.AdcLines.typed_roundtrip_partial",
    "Verif.Props.AdcMessages.message_roundtrip",
    "Verif.Props.AdcMessages.struct_roundtrip",
    "Verif.Props.AdcMessages.tables_good",
    "Verif.Props.AdcFeatures.feature_map_roundtrip"
   ],
   "note": "MsgOk names the conditions on the values: 64-bit integers, feature names of four bytes without separators, paths and statuses as in C49."
  },
  {
   "property": "C43",
   "status": "partial",
   "theorems": [
    "Verif.Props.AdcPacketsIff.packet_roundtrip_iff",
    "Verif.Props.AdcPackets.packet_roundtrip_partial",
    "Verif.Props.AdcPackets.feature_not_roundtrip"
   ],
   "note": "False for feature packets whose payload begins with a plus, a minus or a space: feature_not_roundtrip. All other packets are covered; packet_roundtrip_iff is exact."
  },
  {
   "property": "C44",
   "status": "partial",
   "theorems": [
    "Verif.Props.AdcPackets.broadcast_wellFormed_partial",
    "Verif.Props.AdcPackets.direct_wellFormed_partial",
    "Verif.Props.AdcPackets.echo_wellFormed_partial",
    "Verif.Props.AdcPackets.feature_wellFormed_partial",
    "Verif.Props.AdcPackets.udp_wellFormed",
    "Verif.Props.AdcPackets.short_accepted",
    "Verif.Props.AdcPackets.short_feature_accepted"
   ],
   "note": "False as stated: an id of three characters followed by the end of the line is accepted, with the newline as fourth character (short_accepted). The theorems hold for ids without newline; C96 says exactly which lines are accepted."
  },
  {
   "property": "C45",
   "status": "partial",
   "theorems": [
    "Verif.Props.AdcSafety.raw_no_panic_partial",
    "Verif.Props.AdcSafety.message_no_panic_partial",
    "Verif.Props.AdcSafety.struct_no_panic_partial",
    "Verif.Props.AdcSafety.panic_commands",
    "Verif.Props.AdcSafety.line_no_panic_partial",
    "Verif.Props.AdcSafety.missing_part_panics",
    "Verif.Props.AdcSafety.short_selector_panics",
    "Verif.Props.AdcSafety.lines_panic",
    "Verif.Props.AdcPanics.line_panics_iff",
    "Verif.Props.AdcPanics.packet_panics_iff",
    "Verif.Props.AdcPanics.payload_panics_iff"
   ],
   "note": "False as stated. line_panics_iff gives exactly the lines that panic: a feature packet whose last selector is cut off, or a payload that FatalPayload lists."
  },
  {
   "property": "C46",
   "status": "proved",
   "theorems": [
    "Verif.Props.AdcLines.one_line",
    "Verif.Props.AdcLines.raw_injects"
   ],
   "note": "PacketFree names the parts that are written as they are: command names, ids, features, tags and raw payloads. Texts may hold newlines. The model leaves out packets without message, for which encoding panics."
  },
  {
   "property": "C47",
   "status": "proved",
   "theorems": [
    "Verif.Props.AdcConn.connection",
    "Verif.Props.AdcConn.packets_arrive",
    "Verif.Props.AdcConn.messages_arrive",
    "Verif.Props.AdcConn.raw_gets",
    "Verif.Props.AdcConn.packet_gets",
    "Verif.Props.AdcConn.info_gets",
    "Verif.Props.AdcConn.client_gets",
    "Verif.Props.AdcConn.kind_refused",
    "Verif.Props.AdcConn.keepAlive_hook",
    "Verif.Props.AdcConn.dest_line"
   ],
   "note": "Includes compressed phases. Packets must be one line each (C46) and within the line limit, and typed packets must round trip (C43, C49)."
  },
  {
   "property": "C48",
   "status": "partial",
   "theorems": [
    "Verif.Props.AdcSmall.addFeatures_read",
    "Verif.Props.AdcFeatures.feature_map_roundtrip",
    "Verif.Props.AdcFeatures.feature_map_merge",
    "Verif.Props.AdcFeatures.order_irrelevant",
    "Verif.Props.AdcFeatures.setFrom_get",
    "Verif.Props.AdcFeatures.intersect_get",
    "Verif.Props.AdcFeatures.intersect_comm",
    "Verif.Props.AdcFeatures.isSet_partial",
    "Verif.Props.AdcFeatures.isSet_of_removed",
    "Verif.Props.AdcFeatures.isSet_intersect",
    "Verif.Props.AdcFeatures.add_wins"
   ],
   "note": "IsSet is also true for features marked as removed: isSet_of_removed."
  },
  {
   "property": "C49",
   "status": "partial",
   "theorems": [
    "Verif.Props.AdcText.feats_roundtrip",
    "Verif.Props.AdcText.boolInt_exact",
    "Verif.Props.AdcText.path_roundtrip_partial",
    "Verif.Props.AdcText.path_not_roundtrip",
    "Verif.Props.AdcMessages.status_roundtrip_partial",
    "Verif.Props.AdcMessages.status_not_roundtrip",
    "Verif.Props.AdcMessages.salt_roundtrip",
    "Verif.Props.AdcMessages.salt_padded",
    "Verif.Props.AdcMessages.fields_read",
    "Verif.Props.AdcMessages.fields_roundtrip_iff",
    "Verif.Props.AdcMessages.fields_not_roundtrip"
   ],
   "note": "False for some paths, for status codes of 100 and more, and for INF updates with values that need escaping; the exact conditions are proved."
  },
  {
   "property": "C50",
   "status": "proved",
   "theorems": [
    "Verif.Props.AdcMessages.get_roundtrip",
    "Verif.Props.AdcMessages.get_stale"
   ],
   "note": "Decoding into a used request keeps the old compression flag: get_stale."
  },
  {
   "property": "C51",
   "status": "proved",
   "theorems": [
    "Verif.Props.AdcMessages.decodeTo_exact",
    "Verif.Props.AdcMessages.decodeTo_mismatch",
    "Verif.Props.AdcMessages.decode_cmd",
    "Verif.Props.AdcMessages.decode_unknown",
    "Verif.Props.AdcMessages.decode_known",
    "Verif.Props.AdcMessages.decode_again",
    "Verif.Props.AdcMessages.registry",
    "Verif.Props.AdcMessages.lookup_own"
   ],
   "note": ""
  },
  {
   "property": "C52",
   "status": "proved",
   "theorems": [
    "Verif.Props.TreeHash.treeHash_correct",
    "Verif.Props.TreeHash.file_tree",
    "Verif.Props.TreeHash.bytesReader_full",
    "Verif.Props.TreeHash.treeHash_no_panic"
   ],
   "note": "The specification tree is defined top down by powers of two; the code works bottom up, in place."
  },
  {
   "property": "C53",
   "status": "partial",
   "theorems": [
    "Verif.Props.TreeHash.split_independent_partial",
    "Verif.Props.TreeHash.split_matters",
    "Verif.Props.TreeHash.empty_read_truncates",
    "Verif.Props.TreeHashAny.any_reader",
    "Verif.Props.TreeHashAny.served_exists",
    "Verif.Props.TreeHashAny.served_unique",
    "Verif.Props.TreeHashAny.reader_error",
    "Verif.Props.TreeHashAny.full_served",
    "Verif.Props.TreeHashAny.blocks_served",
    "Verif.Props.TreeHashAny.other_split"
   ],
   "note": "False as stated: a read that does not fill the buffer becomes a leaf of its own, and an empty read ends the data. Proved for readers that fill their buffer; any_reader says what every other reader gives, and other_split that it is not the hash of the data unless the hash function collides."
  },
  {
   "property": "C54",
   "status": "proved",
   "theorems": [
    "Verif.Props.TreeHash.leaves_same_root",
    "Verif.Props.TreeHash.leaves_ne_nil",
    "Verif.Props.TreeHash.empty_leaves_panic"
   ],
   "note": "Lists are values here; that the slice of leaves is not modified is shown in C124, in a model with memory. Finding: TreeHash of no leaves panics."
  },
  {
   "property": "C55",
   "status": "proved",
   "theorems": [
    "Verif.Props.TreeHash.collision",
    "Verif.Props.TreeHash.trees_collide"
   ],
   "note": ""
  },
  {
   "property": "C56",
   "status": "proved",
   "theorems": [
    "Verif.Props.KeyPrints.verify_exact",
    "Verif.Props.KeyPrints.certificate_prints",
    "Verif.Props.KeyPrints.print_injective",
    "Verif.Props.KeyPrints.print_length",
    "Verif.Props.KeyPrints.verify_own"
   ],
   "note": "SHA-256 is a parameter; the length needs only that it gives 32 bytes."
  },
  {
   "property": "C57",
   "status": "proved",
   "theorems": [
    "Verif.Props.Addresses.adc_parse",
    "Verif.Props.Addresses.nmdc_parse",
    "Verif.Props.Addresses.normalize",
    "Verif.Props.Addresses.dc_addr",
    "Verif.Props.Addresses.splitHostPort_iff",
    "Verif.Props.Addresses.adc_host_refused",
    "Verif.Props.Addresses.capital_scheme_refused"
   ],
   "note": "url.Parse and URL.String are parameters; net.SplitHostPort is modelled. Findings: the protocol is chosen by the first three letters of the address, so that NMDC hubs named adc... without scheme, and ADC addresses in capital letters, are refused."
  },
  {
   "property": "C58",
   "status": "proved",
   "theorems": [
    "Verif.Props.AdcGroups.matches_iff",
    "Verif.Props.AdcGroups.table",
    "Verif.Props.AdcGroups.toLower_word",
    "Verif.Props.AdcGroups.groups_disjoint",
    "Verif.Props.AdcGroups.kelvin_matches"
   ],
   "note": "The table of the code is compared with the table of the ADC extension SEGA. The case tables of package unicode outside of ASCII are a parameter. Finding: the Kelvin sign counts as k and the dotted capital I as i."
  },
  {
   "property": "C59",
   "status": "partial",
   "theorems": [
    "Verif.Props.NmdcReaderHooks.unknown_verbatim_partial",
    "Verif.Props.NmdcReaderHooks.unknown_not_verbatim"
   ],
   "note": "False as stated for a command followed by a single space and nothing else: $Foo | comes back as $Foo|. Proved for all other lines."
  },
  {
   "property": "C60",
   "status": "partial",
   "theorems": [
    "Verif.Props.NmdcReaderHooks.encoding_fallback",
    "Verif.Props.NmdcReaderHooks.no_fallback",
    "Verif.Props.NmdcReaderHooks.fallback_fresh",
    "Verif.Props.NmdcReaderHooks.fallback_missed",
    "Verif.Props.NmdcReaderHooks.fallback_nil_replaces"
   ],
   "note": "False as stated: the decoders of ADCGET, ADCSND and the path of UserCommand hide the encoding error, so that the fallback is not tried (fallback_missed). Proved for every message whose decoder reports it; C99 shows that these three are the only ones that do not."
  },
  {
   "property": "C61",
   "status": "proved",
   "theorems": [
    "Verif.Props.LineReaderCut.cut_section_reported",
    "Verif.Props.LineReaderCut.cut_section_read",
    "Verif.Props.LineReaderCut.enable_inside"
   ],
   "note": "Hooks must not fail with io.EOF."
  },
  {
   "property": "C62",
   "status": "partial",
   "theorems": [
    "Verif.Props.NmdcDrops.dropped_readMsg",
    "Verif.Props.NmdcDrops.dropped_readMsgTo",
    "Verif.Props.NmdcDrops.skipped_readMsg",
    "Verif.Props.NmdcDrops.skipped_readMsgTo",
    "Verif.Props.NmdcReaderHooks.raw_hooks",
    "Verif.Props.NmdcReaderHooks.keepAlive_hook",
    "Verif.Props.NmdcReaderHooks.message_hooks",
    "Verif.Props.NmdcReaderHooks.dropped_message_poisons",
    "Verif.Props.NmdcReaderHooks.drop_example",
    "Verif.Props.NmdcReaderHooks.drop_leaks",
    "Verif.Props.NmdcReaderHooks.error_swallowed",
    "Verif.Props.NmdcReaderHooks.undecodable_skipped"
   ],
   "note": "False as stated for OnMessage and OnUnmarshalError: a message dropped there is remembered, and later messages of the same call are refused or mixed with it. Proved for OnRawMessage, OnKeepAlive and for errors of all callbacks; the dropped_ and skipped_ theorems say exactly how a call goes on after a message that OnMessage or OnUnmarshalError skips."
  },
  {
   "property": "C63",
   "status": "partial",
   "theorems": [
    "Verif.Props.NmdcDrops.writer_hooks_exact",
    "Verif.Props.NmdcConn.writer_hooks_partial",
    "Verif.Props.NmdcConn.drop_ends_batch",
    "Verif.Props.NmdcConn.callbacks_in_order"
   ],
   "note": "False as stated: a message refused by a hook ends the whole call of WriteMsg, and the later messages are lost without an error. writer_hooks_exact says what every call writes and returns."
  },
  {
   "property": "C64",
   "status": "proved",
   "theorems": [
    "Verif.Props.Addresses.normalize_idempotent"
   ],
   "note": "Under the law that url.Parse undoes URL.String on the parsed URL."
  },
  {
   "property": "C65",
   "status": "proved",
   "theorems": [
    "Verif.Props.KeyPrints.file_prints",
    "Verif.Props.KeyPrints.blocks_exist"
   ],
   "note": "PEM decoding is a parameter; C114 has that of the standard library."
  },
  {
   "property": "C66",
   "status": "proved",
   "theorems": [
    "Verif.Props.AdcLines.packet_encodes",
    "Verif.Props.AdcLines.message_encodes",
    "Verif.Props.AdcLines.zero_text_refused"
   ],
   "note": "Packets without message (nil) are left out. Finding: texts with a zero byte are encoded to lines that every reader refuses."
  },
  {
   "property": "C67",
   "status": "proved",
   "theorems": [
    "Verif.Props.Identifiers.hash_exact",
    "Verif.Props.Identifiers.hash_buffer_exact",
    "Verif.Props.Identifiers.garbage_after_name"
   ],
   "note": "Finding: a byte 0xFF and up to seven bytes of garbage after the name are accepted (garbage_after_name); the base32 library treats 0xFF as the padding character of an encoding without padding."
  },
  {
   "property": "C68",
   "status": "proved",
   "theorems": [
    "Verif.Props.AdcWire.message_wire",
    "Verif.Props.AdcWire.struct_wire",
    "Verif.Props.AdcWire.table_matches",
    "Verif.Props.AdcWire.required_written"
   ],
   "note": ""
  },
  {
   "property": "C69",
   "status": "proved",
   "theorems": [
    "Verif.Props.AdcWire.struct_reads",
    "Verif.Props.AdcWire.status_reads",
    "Verif.Props.AdcWire.get_reads",
    "Verif.Props.AdcWire.fields_reads",
    "Verif.Props.AdcWire.features_reads",
    "Verif.Props.AdcWire.sid_reads",
    "Verif.Props.AdcWire.fraction_keeps",
    "Verif.Props.AdcWire.path_appends",
    "Verif.Props.AdcSalt.salt_reads",
    "Verif.Props.AdcSalt.salt_unique",
    "Verif.Props.AdcSalt.salt_length"
   ],
   "note": "strconv.ParseFloat is a parameter. Findings: a number with a fraction is accepted and leaves the field as it was; a path is read behind the elements that were there before; a last group of one, three or six characters of a salt is dropped, and the salt then ends with zeros."
  },
  {
   "property": "C70",
   "status": "proved",
   "theorems": [
    "Verif.Props.AdcWire.unknown_ignored",
    "Verif.Props.AdcWire.order_irrelevant",
    "Verif.Props.AdcWire.named_only"
   ],
   "note": ""
  },
  {
   "property": "C71",
   "status": "proved",
   "theorems": [
    "Verif.Props.NmdcWire.payload_wire",
    "Verif.Props.NmdcWire.command_typ",
    "Verif.Props.NmdcWire.line_wire"
   ],
   "note": ""
  },
  {
   "property": "C72",
   "status": "proved",
   "theorems": [
    "Verif.Props.NmdcReads.message_reads",
    "Verif.Props.NmdcReads.myinfo_reads",
    "Verif.Props.NmdcReads.chat_reads",
    "Verif.Props.NmdcReads.userCommand_reads",
    "Verif.Props.NmdcReads.sr_reads",
    "Verif.Props.NmdcReads.search_reads",
    "Verif.Props.NmdcReads.hub_reads",
    "Verif.Props.NmdcReads.get_reads"
   ],
   "note": ""
  },
  {
   "property": "C73",
   "status": "proved",
   "theorems": [
    "Verif.Props.LineReaderTotal.calls_return",
    "Verif.Props.LineReaderTotal.calls_progress"
   ],
   "note": ""
  },
  {
   "property": "C74",
   "status": "partial",
   "theorems": [
    "Verif.Props.LineReaderTotal.no_panic_partial",
    "Verif.Props.LineReaderTotal.empty_read_panics",
    "Verif.Props.LineReaderTotal.empty_read_harmless",
    "Verif.Props.LineReaderPanic.call_panics_iff",
    "Verif.Props.LineReaderPanic.call_never_panics",
    "Verif.Props.LineReaderPanic.readFull_never_panics",
    "Verif.Props.LineReaderPanic.fresh_error",
    "Verif.Props.LineReaderPanic.reachable_whole"
   ],
   "note": "False as stated: inside a compressed section a transport that returns (0, nil) makes ReadByte index an empty buffer (empty_read_panics). Proved for transports that never do so, and for readers that do not use compression. call_panics_iff says exactly which calls panic: those in which the decompressor calls ReadByte when the transport returns (0, nil); what it reads by io.ReadFull (stored blocks, checksum) does no harm."
  },
  {
   "property": "C75",
   "status": "proved",
   "theorems": [
    "Verif.Props.LineWriterLevel.level_used"
   ],
   "note": ""
  },
  {
   "property": "C76",
   "status": "proved",
   "theorems": [
    "Verif.Props.ConnTotal.nmdc_calls_return",
    "Verif.Props.ConnTotal.adc_calls_return"
   ],
   "note": ""
  },
  {
   "property": "C77",
   "status": "proved",
   "theorems": [
    "Verif.Props.ConnTotal.nmdc_panics_only",
    "Verif.Props.ConnTotal.adc_panics_only",
    "Verif.Props.NmdcPanics.decoders_panic_iff",
    "Verif.Props.AdcPanics.line_panics_iff",
    "Verif.Props.AdcPanics.packet_panics_iff",
    "Verif.Props.AdcPanics.payload_panics_iff"
   ],
   "note": "The transport does not return (0, nil) inside a compressed section (C74); callbacks do not panic. ReadMsgTo(nil) and ReadMsgToAny() panic by design."
  },
  {
   "property": "C78",
   "status": "proved",
   "theorems": [
    "Verif.Props.TreeHashAny.any_reader",
    "Verif.Props.TreeHashAny.served_exists",
    "Verif.Props.TreeHashAny.served_unique",
    "Verif.Props.TreeHashAny.reader_error",
    "Verif.Props.TreeHashAny.splits_collide",
    "Verif.Props.TreeHashAny.other_split"
   ],
   "note": "The Tiger function is a parameter."
  },
  {
   "property": "C79",
   "status": "proved",
   "theorems": [
    "Verif.Props.LineMemory.results_are_values",
    "Verif.Props.LineMemory.results_same",
    "Verif.Props.LineMemory.next_call",
    "Verif.Props.LineMemory.array_kept",
    "Verif.Props.LineMemory.earlier_array_kept",
    "Verif.Props.LineMemory.made_array_kept",
    "Verif.Props.LineMemory.line_kept",
    "Verif.Props.LineMemory.next_line_overwrites",
    "Verif.Props.LineMemory.read_delivers"
   ],
   "note": "Hooks do not write to the line they get; the memory of the decompressor is its own."
  },
  {
   "property": "C80",
   "status": "proved",
   "theorems": [
    "Verif.Props.NmdcMemory.results_are_values",
    "Verif.Props.NmdcMemory.next_read",
    "Verif.Props.NmdcMemory.message_kept",
    "Verif.Props.NmdcMemory.error_kept",
    "Verif.Props.NmdcMemory.error_lost"
   ],
   "note": "Callbacks do not write to what they get during the call. Nothing is claimed about the text of the error for an unknown encoding."
  },
  {
   "property": "C81",
   "status": "proved",
   "theorems": [
    "Verif.Props.AdcMemory.results_are_values",
    "Verif.Props.AdcMemory.next_read",
    "Verif.Props.AdcMemory.message_kept",
    "Verif.Props.AdcMemory.raw_kept",
    "Verif.Props.AdcMemory.raw_lost"
   ],
   "note": ""
  },
  {
   "property": "C82",
   "status": "proved",
   "theorems": [
    "Verif.Props.AdcSmall.normalize_split",
    "Verif.Props.AdcSmall.normalize_same",
    "Verif.Props.AdcSmall.normalize_cases",
    "Verif.Props.AdcSmall.normalize_text",
    "Verif.Props.AdcSmall.normalize_once"
   ],
   "note": ""
  },
  {
   "property": "C83",
   "status": "proved",
   "theorems": [
    "Verif.Props.AdcSmall.status_read",
    "Verif.Props.AdcSmall.status_class"
   ],
   "note": ""
  },
  {
   "property": "C84",
   "status": "proved",
   "theorems": [
    "Verif.Props.NmdcRefs.pieces_html",
    "Verif.Props.NmdcRefs.pieces_unescape",
    "Verif.Props.NmdcRefs.pieces_text",
    "Verif.Props.NmdcRefs.decimal_reference",
    "Verif.Props.NmdcRefs.hex_reference",
    "Verif.Props.NmdcRefs.named_reference",
    "Verif.Props.NmdcRefs.decimal_open",
    "Verif.Props.NmdcRefs.hex_open",
    "Verif.Props.NmdcRefs.decimal_single",
    "Verif.Props.NmdcRefs.no_number",
    "Verif.Props.NmdcRefs.no_hex_number",
    "Verif.Props.NmdcRefs.lone_ampersand",
    "Verif.Props.NmdcRefs.large_number_wraps",
    "Verif.Props.NmdcRefs.no_digits"
   ],
   "note": "The table of names is a parameter. Names without their semicolon and unknown names, with the table of the Go library, are the subject of C123."
  },
  {
   "property": "C85",
   "status": "proved",
   "theorems": [
    "Verif.Props.AdcMarshalTotal.marshal_struct",
    "Verif.Props.AdcMarshalTotal.unsupported"
   ],
   "note": ""
  },
  {
   "property": "C86",
   "status": "proved",
   "theorems": [
    "Verif.Props.NmdcShared.writer_linear",
    "Verif.Props.NmdcShared.calls_isolated",
    "Verif.Props.NmdcShared.reader_linear",
    "Verif.Props.NmdcShared.lost_update",
    "Verif.Props.NmdcShared.raw_readMsg",
    "Verif.Props.NmdcShared.raw_readMsgTo",
    "Verif.Props.NmdcShared.raw_readMsgToAny"
   ],
   "note": "The property as stated includes the lost update, for which lost_update is the counterexample to linearizability. A call that panics or does not return has no result in the executions considered."
  },
  {
   "property": "C87",
   "status": "proved",
   "theorems": [
    "Verif.Props.AdcRelay.relay_packet",
    "Verif.Props.AdcRelay.relay_verbatim",
    "Verif.Props.AdcRelay.relay_udp",
    "Verif.Props.AdcRelay.relay_feature",
    "Verif.Props.AdcRelay.relay_once",
    "Verif.Props.AdcRelay.short_relay"
   ],
   "note": ""
  },
  {
   "property": "C88",
   "status": "partial",
   "theorems": [
    "Verif.Props.LineTimeouts.calls_account",
    "Verif.Props.LineTimeouts.guarded_partial",
    "Verif.Props.LineTimeouts.buffered_shape",
    "Verif.Props.LineTimeouts.deadline_cleared",
    "Verif.Props.LineTimeouts.deadline_off",
    "Verif.Props.LineTimeouts.failed_timeout",
    "Verif.Props.LineTimeouts.timeout_never_again",
    "Verif.Props.LineTimeouts.bare_calls",
    "Verif.Props.LineTimeouts.bare_write",
    "Verif.Props.LineTimeouts.bare_close",
    "Verif.Props.LineTimeouts.not_all_guarded"
   ],
   "note": "False as stated: Write, DisableZlib and Close write to the transport without asking for a deadline (not_all_guarded, bare_calls, bare_write, bare_close). Proved for WriteLine, Flush and EnableZlib; the parts about the deadline being off afterwards and about a failing callback are proved for all calls."
  },
  {
   "property": "C89",
   "status": "proved",
   "theorems": [
    "Verif.Props.Registry.register_panics_iff",
    "Verif.Props.Registry.registered_iff",
    "Verif.Props.Registry.register_order",
    "Verif.Props.Registry.register_keeps",
    "Verif.Props.Registry.types_sorted",
    "Verif.Props.Registry.nmdc_init",
    "Verif.Props.Registry.adc_init",
    "Verif.Props.Registry.user_types",
    "Verif.Props.Registry.raw_registered"
   ],
   "note": "A type of the user is an opaque value; decoding into it is not part of the model."
  },
  {
   "property": "C90",
   "status": "proved",
   "theorems": [
    "Verif.Props.AdcPacketVal.set_get",
    "Verif.Props.AdcPacketVal.source_target",
    "Verif.Props.AdcPacketVal.marshal_exact",
    "Verif.Props.AdcPacketVal.decode_exact",
    "Verif.Props.AdcPacketVal.decode_twice",
    "Verif.Props.AdcPacketVal.decodeTo_packet",
    "Verif.Props.AdcPacketVal.unmarshal_again",
    "Verif.Props.AdcPacketVal.run_address",
    "Verif.Props.AdcPacketVal.run_keeps"
   ],
   "note": ""
  },
  {
   "property": "C91",
   "status": "proved",
   "theorems": [
    "Verif.Props.NmdcBack.message_back"
   ],
   "note": "For the codec nil; with another codec only the sufficient conditions of the round trips are proved. The equivalence of each type is in Props/NmdcExact and Props/NmdcExactInfo."
  },
  {
   "property": "C92",
   "status": "proved",
   "theorems": [
    "Verif.Props.HashVar.text_set",
    "Verif.Props.HashVar.run_texts",
    "Verif.Props.HashVar.run_outcomes",
    "Verif.Props.HashVar.buffer_set",
    "Verif.Props.HashVar.buffer_mixes",
    "Verif.Props.HashVar.must_parse",
    "Verif.Props.HashVar.hex_form",
    "Verif.Props.HashVar.hex_injective",
    "Verif.Props.HashVar.forms_back",
    "Verif.Props.HashVar.zero_iff",
    "Verif.Props.HashVar.sid_set"
   ],
   "note": "The base32 decoder and the hexadecimal encoder belong to the standard library, which is not in /repo; they are modelled from knowledge of that library and are part of what is trusted (as for C40)."
  },
  {
   "property": "C93",
   "status": "proved",
   "theorems": [
    "Verif.Props.WriterKept.kept_back",
    "Verif.Props.WriterKept.small_kept",
    "Verif.Props.WriterKept.large_sent"
   ],
   "note": "Without compression and hooks. bufio.Writer belongs to the standard library and is modelled from knowledge of it."
  },
  {
   "property": "C94",
   "status": "proved",
   "theorems": [
    "Verif.Props.AdcBack.own_type",
    "Verif.Props.AdcBack.by_command",
    "Verif.Props.AdcBack.received_again",
    "Verif.Props.AdcBack.received_again_iff",
    "Verif.Props.AdcBack.received_not_again"
   ],
   "note": "Payloads, not whole lines: a newline in a session id or a feature would end the line earlier. strconv.ParseFloat is a parameter."
  },
  {
   "property": "C95",
   "status": "proved",
   "theorems": [
    "Verif.Props.AdcPacketsBack.line_back"
   ],
   "note": "The line is decoded as a whole; that a reader gets it as a whole needs that there is no newline in addresses and raw payloads (C46)."
  },
  {
   "property": "C96",
   "status": "proved",
   "theorems": [
    "Verif.Props.AdcAccepts.read_iff",
    "Verif.Props.AdcAccepts.room_irrelevant"
   ],
   "note": "Exact version of C44."
  },
  {
   "property": "C97",
   "status": "proved",
   "theorems": [
    "Verif.Props.NmdcReuse.reused",
    "Verif.Props.NmdcReuse.outcome"
   ],
   "note": "Exact version of C38, which is false as stated."
  },
  {
   "property": "C98",
   "status": "proved",
   "theorems": [
    "Verif.Props.NmdcLeft.call_value",
    "Verif.Props.NmdcLeft.retry",
    "Verif.Props.NmdcRetry.left_typ",
    "Verif.Props.NmdcRetry.read_again",
    "Verif.Props.NmdcRetry.read_again_chat",
    "Verif.Props.NmdcRetry.read_to_again"
   ],
   "note": "For a decoder returned by the callback. After other errors a half-written message can matter (example beside the theorems)."
  },
  {
   "property": "C99",
   "status": "proved",
   "theorems": [
    "Verif.Props.NmdcReported.reported",
    "Verif.Props.NmdcReported.reads_at_once",
    "Verif.Props.NmdcReported.not_lost",
    "Verif.Props.NmdcReported.stream_not_lost"
   ],
   "note": "The three exceptions are shown by examples beside the theorems (see also C60), and so is that a decoder that itself fails does not lead to a call of OnUnknownEncoding."
  }
 ]
}
