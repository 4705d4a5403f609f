{"id": "C01", "title": "Line framing does not depend on how the network splits the stream", "statement": "Calling ReadLine repeatedly on a reader over a byte stream returns exactly the maximal delimiter-terminated pieces of that stream, in order, each including its delimiter, no byte lost, duplicated or reordered, no matter how the bytes are split into Read results (as long as no line exceeds the configured maximum).", "quantifier": "every byte stream, every delimiter byte, every split of the stream into non-empty read results of any sizes (with or without an error attached to the last data), every line limit at least as long as the longest line", "why_tests_cant": "The number of ways to split a stream is exponential; tests fix a handful of splits (mostly one big bytes.Reader).", "anchors": ["lineproto/reader.go: Reader.ReadLine", "lineproto/reader.go: bufReader.Scan", "lineproto/reader.go: bufReader.peek"]}
{"id": "C02", "title": "Line length limit is enforced and never rejects a legal line", "statement": "With a positive limit max, ReadLine never returns a line longer than max-1 plus one read buffer (2048 bytes), a line of at most max bytes is never rejected as too long, and the bytes buffered for one line never exceed that bound; with a limit <= 0 no line is rejected as too long.", "quantifier": "every stream, every chunking, every limit", "why_tests_cant": "The overshoot depends on where chunk boundaries fall relative to the limit; a test sees one alignment.", "anchors": ["lineproto/reader.go: Reader.ReadLine", "lineproto/reader.go: Reader.SetMaxLine"]}
{"id": "C03", "title": "Line hooks filter and never reorder", "statement": "With OnLine hooks registered, ReadLine returns exactly the lines of the stream that every hook accepts, in stream order; a hook is shown the whole raw line including the delimiter; a line rejected by a hook is dropped silently and a hook error is returned to the caller.", "quantifier": "every stream, every chunking, every finite list of (pure) hooks", "why_tests_cant": "Depends on all streams and hook behaviours.", "anchors": ["lineproto/reader.go: Reader.OnLine", "lineproto/reader.go: Reader.ReadLine"]}
{"id": "C04", "title": "End of stream yields the unterminated tail together with the error", "statement": "When the stream ends (or a read fails) in the middle of a line, ReadLine returns the bytes of that unterminated tail together with the error, after all complete lines were delivered; at a clean end it returns an empty tail and the error, and keeps doing so.", "quantifier": "every stream, every chunking, every read error at the end", "why_tests_cant": "All positions of the end of the stream relative to buffer and chunk boundaries.", "anchors": ["lineproto/reader.go: Reader.ReadLine"]}
{"id": "C05", "title": "Decompression begins and ends at the exact byte", "statement": "After EnableZlib, the lines delivered are the lines of the inflated stream followed by the plain bytes that come right after the compressed stream; no plain byte is consumed by the decompressor and a line that begins inside and ends outside the compressed section is delivered whole.", "quantifier": "every plain prefix, every compressed section (abstract inflater that consumes its input byte by byte through the buffered reader), every plain suffix, every chunking of both, any number of alternating sections", "why_tests_cant": "The boundary can fall anywhere in the read buffer; tests use one 32-byte compressed literal.", "anchors": ["lineproto/reader.go: Reader.EnableZlib", "lineproto/reader.go: Reader.ReadLine", "lineproto/reader.go: bufReader.ReadByte"]}
{"id": "C06", "title": "Binary sections are exact", "statement": "The reader returned by Binary(n) yields exactly the next n bytes of the (decompressed) stream and then end-of-file, Close consumes whatever part was not read, and the next ReadLine begins exactly at byte n+1.", "quantifier": "every stream, chunking, n, every sequence of caller buffer sizes, every number of bytes read before Close", "why_tests_cant": "Mixed buffered and bypassing reads; tests use two fixed lengths.", "anchors": ["lineproto/reader.go: Reader.Binary", "lineproto/reader.go: Reader.Read", "lineproto/reader.go: binaryReader"]}
{"id": "C07", "title": "A closed reader refuses all operations", "statement": "After Close every ReadLine, Read, EnableZlib and Binary call returns the 'reader is closed' error and no data, and nothing panics.", "quantifier": "every reader state before Close, every sequence of calls after it", "why_tests_cant": "All histories.", "anchors": ["lineproto/reader.go: Reader.Close"]}
{"id": "C08", "title": "Writer delivers lines in order, whole prefix at all times", "statement": "At any moment the bytes given to the underlying writer are a prefix of the concatenation of the lines accepted by WriteLine, in order; after a Flush that returns nil they are exactly that concatenation.", "quantifier": "every sequence of WriteLine/Write/Flush calls with any line sizes, any buffer size, any (possibly failing or short-writing) sink", "why_tests_cant": "Depends on all alignments of line sizes and the buffer size and all failure points.", "anchors": ["lineproto/writer.go: Writer.WriteLine", "lineproto/writer.go: Writer.Flush", "lineproto/writer.go: Writer.Write"]}
{"id": "C09", "title": "Writer errors are sticky", "statement": "Once WriteLine, Flush, EnableZlib or DisableZlib has failed with a sink, timeout or hook error, every later WriteLine, Flush, Write, EnableZlib and DisableZlib returns that same error and hands nothing further to the sink.", "quantifier": "every history of calls and every failure point of the sink, the timeout callback and the hooks", "why_tests_cant": "All histories and crash points.", "anchors": ["lineproto/writer.go: Writer.setError", "lineproto/writer.go: Writer.WriteLine", "lineproto/writer.go: Writer.Flush"]}
{"id": "C10", "title": "Compressed sections on the wire carry exactly the lines written while compression was on", "statement": "The bytes sent are the concatenation, in order, of plain segments and complete zlib streams; each zlib stream inflates to exactly the lines written between EnableZlib and DisableZlib (or Close); a Flush inside a section makes all lines written so far decodable.", "quantifier": "every sequence of WriteLine/Flush/EnableZlibLevel/DisableZlib calls, every abstract deflater obeying the zlib stream laws", "why_tests_cant": "All interleavings of buffered data and mode switches.", "anchors": ["lineproto/writer.go: Writer.EnableZlibLevel", "lineproto/writer.go: Writer.DisableZlib", "lineproto/writer.go: Writer.Close"]}
{"id": "C11", "title": "What one side writes as lines the other side reads as the same lines", "statement": "Lines written by a Writer and flushed, carried over any transport splitting, are read back by a Reader as the same list of lines.", "quantifier": "every list of delimiter-terminated lines, every buffer size, every transport chunking", "why_tests_cant": "Composition of two stateful buffers over all splits.", "anchors": ["lineproto/writer.go: Writer", "lineproto/reader.go: Reader"]}
{"id": "C12", "title": "A failed attempt to enable compression leaves the writer usable or reports the error", "statement": "After EnableZlibLevel returns an error no later call panics.", "quantifier": "every history of calls and every level", "why_tests_cant": "All histories.", "anchors": ["lineproto/writer.go: Writer.EnableZlibLevel", "lineproto/writer.go: Writer.Flush"]}
{"id": "C13", "title": "Line hooks of the writer", "statement": "A line refused by an OnLine hook is not sent and reported as success; a line accepted by all hooks is sent verbatim.", "quantifier": "every line, every hook list, every writer state", "why_tests_cant": "All hook behaviours and states.", "anchors": ["lineproto/writer.go: Writer.OnLine", "lineproto/writer.go: Writer.WriteLine"]}
{"id": "C14", "title": "NMDC text survives escaping", "statement": "A valid UTF-8 text value without NUL bytes, whose encoded bytes hold no legacy /%DCNnnn%/ sequence, is encoded and decoded back to the same value; the encoded form never contains '$', '|' or NUL, and an encoded text never contains a bare '&'.", "quantifier": "every valid UTF-8 string, nil or any lossless text encoding", "why_tests_cant": "html entity decoding is a large table with prefix matches; only a proof shows that no following text can combine with an emitted entity.", "anchors": ["nmdc/types.go: String.MarshalNMDC", "nmdc/types.go: String.UnmarshalNMDC", "nmdc/types.go: UnescapeBytes", "nmdc/utils.go: escapeString"]}
{"id": "C15", "title": "NMDC names survive escaping", "statement": "A valid UTF-8 name accepted by the encoder is decoded back to the same name (when its encoded form fits the 256-byte limit and it holds no legacy sequence); encoded names contain none of '$', '|', '<', '>', NUL, CR, LF, TAB; names with forbidden characters or longer than 256 bytes are refused by both sides.", "quantifier": "every valid UTF-8 string, nil or any lossless text encoding", "why_tests_cant": "All byte strings; interaction with the 2200-entry entity table.", "anchors": ["nmdc/types.go: Name.MarshalNMDC", "nmdc/types.go: Name.UnmarshalNMDC", "nmdc/utils.go: escapeName"]}
{"id": "C16", "title": "One message is one protocol line", "statement": "The encoded form of a message ends with '|' and contains no other '|', so a value chosen by a user can never inject a second command.", "quantifier": "every message whose encoder returns success", "why_tests_cant": "Injection needs adversarial values; tests use benign ones.", "anchors": ["nmdc/message.go: MarshalTo", "nmdc/message.go: Marshal"]}
{"id": "C17", "title": "Main chat messages round-trip", "statement": "A ChatMessage whose name and text survive escaping (C14, C15), with a non-empty name or with a text that does not begin with '<', is decoded back unchanged from its encoded form. Without a name a text that begins with '<' is misread (shown by an example).", "quantifier": "every such name and text accepted by the encoder, nil or any lossless text encoding", "why_tests_cant": "The decoder scans for '>' followed by white space using Unicode rules; unbounded texts.", "anchors": ["nmdc/msg_chat.go: ChatMessage"]}
{"id": "C18", "title": "Private messages and MCTo round-trip", "statement": "PrivateMessage and MCTo values whose names and text survive escaping (C14, C15) are decoded back unchanged from their encoded form, when the encoded name of the recipient of a PrivateMessage does not hold ' From:' and the encoded name of the sender of an MCTo holds no space.", "quantifier": "every such sender, target, name and text accepted by the encoder, nil or any lossless text encoding", "why_tests_cant": "Separator strings can be hidden in values; unbounded.", "anchors": ["nmdc/msg_chat.go: PrivateMessage", "nmdc/msg_chat.go: MCTo"]}
{"id": "C19", "title": "User commands round-trip", "statement": "A UserCommand that has both a path and a command, or neither, is decoded back unchanged from its encoded form, when its texts survive escaping (C14), no path element is empty or holds a backslash, the last path element does not end with a space and the command does not end with white space. The excluded cases are lost or refused (shown by examples).", "quantifier": "every such path and command, every type and context from 0 to 2^63-1, nil or any lossless text encoding", "why_tests_cant": "Unbounded path lists and texts.", "anchors": ["nmdc/msg_chat.go: UserCommand"]}
{"id": "C20", "title": "Connection requests round-trip", "statement": "ConnectToMe (all kinds, secure or not) and RevConnectToMe are decoded back unchanged from their encoded form, when their names survive escaping (C15), the name written first and the address hold no space, and the address of an active request does not end with a letter that is read as a flag (N, R, S). The encoder refuses the ill-formed combinations (no target, source on a non-passive request, no source on a passive request), and only those and names that cannot be encoded.", "quantifier": "every such target, source, address, kind, flag, nil or any lossless text encoding", "why_tests_cant": "Suffix letters N/R/S overlap with address bytes; all addresses.", "anchors": ["nmdc/msg_ctm.go: ConnectToMe", "nmdc/msg_ctm.go: RevConnectToMe"]}
{"id": "C21", "title": "Single-value messages round-trip", "statement": "Hello, HubName, HubTopic, Version, ForceMove, Kick, Close, SetTopic, MyPass, ValidateNick, ValidateDenide, MyNick, Quit, LogedIn, BotINFO, SetIcon, SetLogo, Key, Failed, Error, FailOver, Supports and the argument-less messages are decoded back unchanged.", "quantifier": "every value whose text parts are well formed (names and texts without old-style escapes); FailOver: non-empty lists of hosts without commas; Supports: non-empty lists of non-empty words without spaces. The excluded cases (empty FailOver list comes back as one empty host, empty Supports list panics) are stated as theorems.", "why_tests_cant": "All byte strings.", "anchors": ["nmdc/msg_hub.go", "nmdc/msg_other.go", "nmdc/msg_pass.go", "nmdc/msg_user.go", "nmdc/msg_ping.go", "nmdc/msg_errors.go", "nmdc/extensions.go: Supports"]}
{"id": "C22", "title": "HubINFO round-trips", "statement": "A HubINFO whose texts survive escaping (C14) is decoded back unchanged from its encoded form, when host, software and encoding are free of '$', the software version has no space, and a software name without a version has none either (it would be split at its last space).", "quantifier": "every such HubINFO with 64-bit numbers, nil or any lossless text encoding", "why_tests_cant": "All values of eleven fields.", "anchors": ["nmdc/msg_ping.go: HubINFO"]}
{"id": "C23", "title": "Lock handshake round-trips", "statement": "A Lock is decoded back unchanged from its encoded form, whatever the receiver held, when the lock holds no space, the PK does not hold 'Ref=', and a lock marked as not extended does not begin with EXTENDEDPROTOCOL.", "quantifier": "every such lock, pk and ref string", "why_tests_cant": "Optional parts interact.", "anchors": ["nmdc/msg_lock.go: Lock"]}
{"id": "C24", "title": "Name lists round-trip", "statement": "OpList/BotList and UserIP lists are decoded back unchanged, in order.", "quantifier": "every list of well-formed names except the list of exactly one empty name (read as no name); every non-empty list of name-address pairs whose address holds neither '$' nor a space (the empty list is read as one nameless user)", "why_tests_cant": "Unbounded lists.", "anchors": ["nmdc/msg_user_list.go: Names", "nmdc/msg_user_list.go: UserIP"]}
{"id": "C25", "title": "File transfer requests round-trip", "statement": "ADCGET, ADCSND and Direction messages are decoded back unchanged, including 64-bit positions and lengths (a length of -1 included) and Direction numbers from 1 to 32767; the decoder refuses other Direction numbers. Lengths above 2^63 wrap around (shown by an example).", "quantifier": "every content type and identifier that survives escaping (C14) and has no space, all numbers allowed by the format, nil or any lossless text encoding", "why_tests_cant": "All 64-bit values.", "anchors": ["nmdc/msg_files.go: ADCGet", "nmdc/msg_files.go: ADCSnd", "nmdc/msg_files.go: Direction"]}
{"id": "C26", "title": "Search requests round-trip", "statement": "A Search is decoded back unchanged up to the documented normalisations (data type 0 becomes 'any', spaces and dollars in the pattern are identified, size mode of an unrestricted search), when its name and pattern survive escaping (C14, C15), the address and the encoded user name hold no space and the address does not begin with 'Hub:'.", "quantifier": "every such search value accepted by the encoder, nil or any lossless text encoding that leaves ASCII alone", "why_tests_cant": "Unbounded patterns and all hashes.", "anchors": ["nmdc/msg_search.go: Search"]}
{"id": "C27", "title": "Search results round-trip", "statement": "An SR (file or directory, with TTH or hub name, with or without target) whose names survive escaping (C14, C15) is decoded back unchanged, when its path elements need no escaping and hold no separators, the path of a file does not end like the slots of a directory result, the encoded hub name does not hold ' (' or begin with 'TTH:', the hub address holds no ')', a result with a hash has no hub name and a directory has no size and no negative slots.", "quantifier": "every such SR value accepted by the encoder, nil or any lossless text encoding", "why_tests_cant": "Backward scan for slots; unbounded paths.", "anchors": ["nmdc/msg_search.go: SR"]}
{"id": "C28", "title": "Short TTH searches round-trip", "statement": "SA and SP messages are decoded back unchanged (the user name of an SP must survive escaping, C15).", "quantifier": "every 24-byte hash, every address, every such user name, nil or any lossless text encoding", "why_tests_cant": "All 2^192 hashes.", "anchors": ["nmdc/msg_search.go: TTHSearchActive", "nmdc/msg_search.go: TTHSearchPassive", "tiger/tiger.go: Hash.MarshalBase32"]}
{"id": "C29", "title": "MyINFO round-trips for every map order", "statement": "A MyINFO (with client tag, mode, hub counts, slots, extra fields, connection, flag, e-mail, share size) is decoded back unchanged, up to the default values the decoder fills in, for every iteration order of its extra-field map, when its texts survive escaping (C14, C15), the encoded name has no space, the parts of the tag hold no separators of the tag, an extra key is not empty, and one of a single byte is neither a standard letter (V, M, H, S) nor above 'Z', and the flag is not '$'.", "quantifier": "every such MyINFO with 64-bit numbers, every permutation of the map, nil or any lossless text encoding, every previous value of the receiver", "why_tests_cant": "Map iteration order is random; unbounded field values.", "anchors": ["nmdc/msg_user.go: MyINFO"]}
{"id": "C30", "title": "NMDC decoders never panic", "statement": "Decoding any line as any registered message returns a value or an error and never panics.", "quantifier": "every byte string, every registered message type, nil or any decoder", "why_tests_cant": "All byte strings.", "anchors": ["nmdc/message.go: Message.UnmarshalNMDC", "nmdc/reader.go: Reader.readMsgTo", "tiger/tiger.go: Hash.UnmarshalBase32"]}
{"id": "C31", "title": "Decoded NMDC text is valid UTF-8", "statement": "Every name or text value produced by a decoder is valid UTF-8; invalid text is reported as an unknown encoding instead.", "quantifier": "every byte string, nil or any decoder", "why_tests_cant": "All byte strings.", "anchors": ["nmdc/types.go: Name.UnmarshalNMDC", "nmdc/types.go: String.UnmarshalNMDC"]}
{"id": "C32", "title": "Message dispatch is by command name", "statement": "ReadMsg skips keep-alives, rejects NUL bytes, an empty, non-ASCII or over-long command name, decodes '$Name args|' with the type registered for Name, and otherwise returns a RawMessage holding the verbatim name and arguments; a line without '$' is a chat message.", "quantifier": "every line, every maximum name length", "why_tests_cant": "All lines.", "anchors": ["nmdc/reader.go: Reader.ReadMsg", "nmdc/message.go: NewMessage"]}
{"id": "C33", "title": "Typed reads never deliver the wrong message", "statement": "ReadMsgTo(m) and ReadMsgToAny(ms...) either decode a message whose type is the requested one (one of the requested ones) into that very value, or return an error that carries the received name and arguments.", "quantifier": "every line, every requested message or list of messages", "why_tests_cant": "All lines and target lists.", "anchors": ["nmdc/reader.go: Reader.ReadMsgTo", "nmdc/reader.go: Reader.ReadMsgToAny", "nmdc/reader.go: ErrUnexpectedCommand"]}
{"id": "C34", "title": "NMDC connection round trip", "statement": "Messages written with WriteMsg and flushed are read by ReadMsg on the other side as the same messages in the same order, for every splitting of the stream by the transport and with keep-alives interspersed.", "quantifier": "every list of round-tripping messages, every buffer size, every chunking", "why_tests_cant": "Composition over all lists and splits.", "anchors": ["nmdc/writer.go: Writer.WriteMsg", "nmdc/reader.go: Reader.ReadMsg"]}
{"id": "C35", "title": "Decimal parsing is exact", "statement": "Number fields accept exactly the optionally space-padded decimal numerals in range and return their mathematical value; overflow is an error, never a wrapped value.", "quantifier": "every byte string", "why_tests_cant": "All 64-bit boundary cases for every length of leading zeros and padding.", "anchors": ["nmdc/utils.go: parseUin64Trim", "nmdc/utils.go: atoiTrim"]}
{"id": "C36", "title": "Lock-to-key response", "statement": "The key for a lock of length >= 2 is the documented XOR/nibble-swap transform with the six reserved bytes replaced, contains none of the six reserved bytes, and undoing the replacement recovers the raw key unless the raw key itself contains \"/%DCN\"; the raw key determines the lock. A shorter lock panics.", "quantifier": "every lock, every magic byte", "why_tests_cant": "All byte strings.", "anchors": ["nmdc/msg_lock.go: Lock.CustomKey", "nmdc/msg_lock.go: Lock.Key"]}
{"id": "C37", "title": "Extension sets behave as sets", "statement": "Intersect, IntersectList, Has, Set, Clone and List on Extensions and Intersect on Supports compute set intersection, membership, insertion, copy and the sorted duplicate-free listing, for every map iteration order.", "quantifier": "all extension lists and sets", "why_tests_cant": "All sets and iteration orders.", "anchors": ["nmdc/extensions.go: Supports.Intersect", "nmdc/extensions.go: Extensions"]}
{"id": "C38", "title": "Decoding into a reused message depends only on the line", "statement": "Decoding a line into a message value that was used before gives the same result as decoding it into a fresh one.", "quantifier": "every message type, every previous value, every line", "why_tests_cant": "Needs pairs of lines; tests always decode into fresh values.", "anchors": ["nmdc/reader.go: Reader.ReadMsgTo", "nmdc/msg_ctm.go: ConnectToMe.UnmarshalNMDC", "nmdc/msg_lock.go: Lock.UnmarshalNMDC"]}
{"id": "C39", "title": "ADC text survives escaping", "statement": "unescape(escape(s)) = s for every string and the escaped form contains no space and no newline; distinct strings have distinct escaped forms.", "quantifier": "every byte string", "why_tests_cant": "All byte strings; overlapping escape sequences.", "anchors": ["adc/marshal.go: escape", "adc/marshal.go: unescape", "adc/types.go: String"]}
{"id": "C40", "title": "Base32 identifiers round-trip", "statement": "A 24-byte hash, CID or PID encodes to 39 base32 characters and decodes to itself, by both the buffer and the string decoder; a 20-bit number converts to a 4-character SID injectively and the SID round-trips.", "quantifier": "every 24-byte value, every number below 2^20", "why_tests_cant": "2^192 values.", "anchors": ["tiger/tiger.go: Hash.Base32", "tiger/tiger.go: Hash.FromBase32", "tiger/tiger.go: Hash.UnmarshalBase32", "adc/types/types.go: SIDFromInt", "adc/types/types.go: CID"]}
{"id": "C41", "title": "Base32 decoding never panics", "statement": "Decoding any text as a hash returns a hash or an error.", "quantifier": "every byte string", "why_tests_cant": "All lengths and contents.", "anchors": ["tiger/tiger.go: Hash.UnmarshalBase32", "tiger/tiger.go: Hash.FromBase32"]}
{"id": "C42", "title": "ADC messages round-trip", "statement": "Every registered ADC message is decoded back unchanged from its encoded payload (empty slices and nil slices identified), when its integers have 64 bits, its feature names are four bytes without separators, its paths have at least one element and no element with a slash, and its status codes have two digits.", "quantifier": "every such value of every registered message type", "why_tests_cant": "Reflection-driven codec; unbounded strings, lists and all integers.", "anchors": ["adc/marshal.go: Marshal", "adc/marshal.go: Unmarshal", "adc/messages.go: UnmarshalMessage"]}
{"id": "C43", "title": "ADC packets round-trip for all kinds", "statement": "Encoding a packet (info, hub, broadcast, direct, echo, client, feature, UDP) with a raw payload and decoding the line gives the same packet.", "quantifier": "every kind, source and target ids without NUL, feature selector, command name and payload", "why_tests_cant": "All payloads; the selector loop resets its index.", "anchors": ["adc/packets.go: DecodePacketRaw", "adc/packets.go: MarshalPacketADC", "adc/packets.go: UnmarshalPacketADC"]}
{"id": "C44", "title": "ADC packet decoding accepts only well-formed headers", "statement": "A line accepted as a broadcast, direct, echo, feature or UDP packet holds a complete source (and target) id followed by a space or the end of the line.", "quantifier": "every line", "why_tests_cant": "Off-by-one on short lines.", "anchors": ["adc/packets.go: UnmarshalPacketADC"]}
{"id": "C45", "title": "ADC decoding never panics", "statement": "Decoding any line as a packet and its payload as the registered message returns a value or an error.", "quantifier": "every byte string", "why_tests_cant": "All byte strings.", "anchors": ["adc/packets.go: DecodePacket", "adc/marshal.go: Unmarshal"]}
{"id": "C46", "title": "One ADC packet is one line", "statement": "An encoded packet ends with a newline and contains no other newline, when ids and raw payloads contain none.", "quantifier": "every packet with any registered message", "why_tests_cant": "Injection needs adversarial values.", "anchors": ["adc/packets.go: MarshalPacketADC", "adc/marshal.go: Marshal"]}
{"id": "C47", "title": "ADC connection round trip", "statement": "Packets written with WritePacket and flushed are read by ReadPacketRaw on the other side as the same packets in order, and by ReadPacket with the same typed messages, for every chunking, with keep-alives interspersed and skipped.", "quantifier": "every list of packets that are one line each (C46) within the line limit and round-trip on their own (C42, C43), every buffer size, every chunking", "why_tests_cant": "Composition over all lists and splits.", "anchors": ["adc/writer.go: Writer.WritePacket", "adc/reader.go: Reader.ReadPacketRaw"]}
{"id": "C48", "title": "ADC feature maps", "statement": "ModFeatures encoding and decoding gives back the same map for every iteration order; SetFrom overrides, Intersect keeps exactly the features enabled on both sides; IsSet tells whether a feature is enabled.", "quantifier": "all feature maps and iteration orders", "why_tests_cant": "Random map order.", "anchors": ["adc/types.go: ModFeatures"]}
{"id": "C49", "title": "ADC value types round-trip", "statement": "ExtFeatures, BoolInt, Path, Fields (INF updates), Status and GetPassword salts are decoded back unchanged.", "quantifier": "all values", "why_tests_cant": "Unbounded values.", "anchors": ["adc/types.go: ExtFeatures", "adc/types.go: BoolInt", "adc/types.go: Path", "adc/messages.go: Fields", "adc/messages.go: Status", "adc/hub.go: GetPassword"]}
{"id": "C50", "title": "ADC file requests round-trip", "statement": "GET and SND requests are decoded back unchanged, including negative lengths.", "quantifier": "every type, path, all 64-bit start and length values", "why_tests_cant": "All values.", "anchors": ["adc/files.go: GetRequest", "adc/files.go: GetResponse"]}
{"id": "C51", "title": "ADC typed decoding never confuses messages", "statement": "DecodeMessageTo decodes only when the command names agree; DecodeMessage decodes with the type registered for the command name and keeps unknown commands verbatim.", "quantifier": "every command name, payload and target", "why_tests_cant": "All names.", "anchors": ["adc/packets.go: decodeMessageTo", "adc/packets.go: decodeMessage", "adc/messages.go: UnmarshalMessage"]}
{"id": "C52", "title": "Tree hash equals the Merkle root of 1024-byte leaves", "statement": "TreeHash of a reader that fills its buffer equals the root of the THEX tree over the 1024-byte blocks of the data (0x00-prefixed leaves, 0x01-prefixed inner nodes, odd node promoted, empty input hashed as one empty leaf).", "quantifier": "every byte string, every 24-byte hash function", "why_tests_cant": "All sizes; tests stop at 1025 bytes (one inner node).", "anchors": ["tiger/tth.go: TreeHash", "tiger/tth.go: TreeLeaves", "tiger/tth.go: Leaves.TreeHash"]}
{"id": "C53", "title": "Tree hash does not depend on how the reader returns the data", "statement": "TreeHash of a stream depends only on its bytes.", "quantifier": "every byte string, every split into read results", "why_tests_cant": "All splits.", "anchors": ["tiger/tth.go: TreeHash"]}
{"id": "C54", "title": "Leaves give the same root", "statement": "TreeLeaves followed by TreeHash on the leaves equals TreeHash of the data, for every reader behaviour; the leaves slice is not modified.", "quantifier": "every reader", "why_tests_cant": "All readers.", "anchors": ["tiger/tth.go: TreeLeaves", "tiger/tth.go: Leaves.TreeHash", "tiger/tth.go: TreeHash"]}
{"id": "C55", "title": "Tree hash is as collision resistant as the hash", "statement": "Two different byte strings with the same tree hash yield an explicit collision of the underlying hash function.", "quantifier": "every pair of byte strings, every hash function", "why_tests_cant": "A statement about all inputs.", "anchors": ["tiger/tth.go: TreeHash"]}
{"id": "C56", "title": "Key prints are verified exactly", "statement": "VerifyKeyPrint succeeds if and only if the expected key print equals the key print of one of the peer certificates, and returns all of them in order; a key print is 'SHA256/' followed by the 52-character base32 of the digest, so equal key prints mean equal digests.", "quantifier": "every certificate list, every expected string, every 32-byte hash function", "why_tests_cant": "All lists and strings.", "anchors": ["keyprint/keyprint.go: FromBytes", "keyprint/keyprint.go: FromCertificate", "keyprint/tlskp/tlskp.go: VerifyKeyPrint"]}
{"id": "C57", "title": "Addresses keep only supported schemes", "statement": "A successfully parsed address has one of the schemes adc, adcs, dchub, nmdcs and a path without trailing slash; NMDC addresses without a scheme get dchub and 'nmdc' becomes 'dchub'; an empty host is refused by NormalizeAddr.", "quantifier": "every address string, with URL parsing abstract", "why_tests_cant": "All strings.", "anchors": ["conn.go: ParseAddr", "adc/conn.go: ParseAddr", "nmdc/conn.go: ParseAddr", "nmdc/conn.go: NormalizeAddr"]}
{"id": "C58", "title": "File extension groups", "statement": "ExtGroup.Matches(name) is true exactly when the group is empty or contains the group of the lower-cased extension after the last dot.", "quantifier": "every name and group", "why_tests_cant": "All strings.", "anchors": ["adc/search.go: ExtGroup.Matches"]}
{"id": "C59", "title": "Unknown NMDC commands are forwarded verbatim", "statement": "A command that is not registered is decoded to a RawMessage which encodes to the very same line.", "quantifier": "every command name and argument bytes accepted by the reader", "why_tests_cant": "All byte strings.", "anchors": ["nmdc/message.go: RawMessage", "nmdc/message.go: MarshalTo"]}
{"id": "C60", "title": "Encoding fallback", "statement": "With OnUnknownEncoding set, a message whose text is not valid UTF-8 is decoded again with the decoder returned by the callback, which also becomes the decoder of all later messages; without it the error is returned.", "quantifier": "every line, callback and decoder", "why_tests_cant": "All lines and callbacks.", "anchors": ["nmdc/reader.go: Reader.OnUnknownEncoding", "nmdc/reader.go: Reader.readMsgTo"]}
{"id": "C61", "title": "A compressed section that is cut short or corrupt is never taken for a finished one", "statement": "While the compressed stream does not end within the bytes that arrive (the connection breaks inside the section, or the data is corrupt), ReadLine and Read stay inside the section: they return the lines decompressed so far and then an error that is not io.EOF, and never go back to reading the connection as plain text.", "quantifier": "every decompressor that does not call its own failures io.EOF, every byte stream within which the compressed stream does not end, every chunking and every read error, any number of calls", "why_tests_cant": "The cut can fall at any byte of any compressed stream and any chunking.", "anchors": ["lineproto/reader.go: Reader.ReadLine", "lineproto/reader.go: Reader.Read", "lineproto/reader.go: Reader.EnableZlib"]}
{"id": "C62", "title": "NMDC reader callbacks filter the stream", "statement": "A message for which an OnRawMessage or OnMessage callback returns false is skipped, as if it were not in the stream; an error returned by OnRawMessage, OnMessage, OnKeepAlive or OnUnmarshalError is returned by the read call; a message all callbacks accept is returned.", "quantifier": "every line, every set of callbacks, every chunking", "why_tests_cant": "What a skipped message leaves behind shows only in combination with the messages after it.", "anchors": ["nmdc/reader.go: Reader.OnRawMessage", "nmdc/reader.go: Reader.OnMessage", "nmdc/reader.go: Reader.OnKeepAlive", "nmdc/reader.go: Reader.OnUnmarshalError", "nmdc/reader.go: Reader.readMsgTo"]}
{"id": "C63", "title": "NMDC writer callbacks skip single messages", "statement": "WriteMsg writes, in order, exactly those messages that all OnMessage callbacks accept, skipping the others; an error of a callback is returned.", "quantifier": "every list of messages in one call, every set of callbacks", "why_tests_cant": "Any message of any batch may be the one skipped.", "anchors": ["nmdc/writer.go: Writer.OnMessage", "nmdc/writer.go: Writer.WriteMsg"]}
{"id": "C64", "title": "Normalizing an address twice is the same as once", "statement": "If NormalizeAddr(addr) returns t without error then NormalizeAddr(t) returns t.", "quantifier": "every address string, for every URL library whose Parse undoes String on the URLs in question", "why_tests_cant": "All strings.", "anchors": ["conn.go: NormalizeAddr", "adc/conn.go: NormalizeAddr", "nmdc/conn.go: NormalizeAddr"]}
{"id": "C65", "title": "Key prints of a certificate file", "statement": "FromFile returns the key prints of exactly the CERTIFICATE blocks of the file, in order, and an error if there are none or the file cannot be read.", "quantifier": "every file, every PEM decoder that consumes its input", "why_tests_cant": "All files, any number of blocks of any types.", "anchors": ["keyprint/keyprint.go: FromFile"]}
{"id": "C66", "title": "ADC encoding never fails", "statement": "Every packet with every message value can be encoded: no value makes the encoder fail or panic.", "quantifier": "every packet of every kind, every value of every message type, including nil pointers and empty slices", "why_tests_cant": "Reflection over all field types and values.", "anchors": ["adc/marshal.go: Marshal", "adc/packets.go: MarshalPacketADC"]}
{"id": "C67", "title": "Which texts name a hash", "statement": "A text is read as a tiger hash or CID exactly if, after its line feeds and carriage returns are removed, it consists of 39 characters of the base32 alphabet whose first 192 bits are the hash (optionally followed by the garbage the decoder of the base32 library lets through); every other text is refused. The two entry points (from a string, from a buffer) agree wherever the second does not panic.", "quantifier": "every byte string, every hash", "why_tests_cant": "All byte strings, of any length.", "anchors": ["tiger/tiger.go: Hash.FromBase32", "tiger/tiger.go: Hash.UnmarshalBase32", "adc/types/types.go: CID.UnmarshalADC"]}
{"id": "C68", "title": "What an ADC message looks like on the wire", "statement": "Every message is encoded to exactly the text the protocol prescribes: positional parameters first and in order, then named parameters with their two-letter tags in the order of the table, one part per element of a list, zero values left out unless the parameter is required, texts escaped, numbers in decimal without leading zeros, identifiers in base32, a status code in at least two digits.", "quantifier": "every message of every type with every value", "why_tests_cant": "All values of all message types; a round trip through the same library does not notice a wrong tag or a wrong notation that encoder and decoder share.", "anchors": ["adc/marshal.go: Marshal", "adc/messages.go: Status.MarshalADC", "adc/files.go: GetRequest.MarshalADC", "adc/types.go: ModFeatures.MarshalADC", "adc/user.go: UserInfo", "adc/hub.go: UserCommand"]}
{"id": "C69", "title": "Which texts the ADC decoders accept, and as what", "statement": "A text is accepted for a message type exactly if its parts are acceptable to the fields, and the result is the value they name: nothing else is accepted, and nothing acceptable is refused. Fields that do not occur keep their value. The salt of a password request is what the base32 text carries, followed by zeros up to five bytes for every eight received.", "quantifier": "every byte string, every message type, every value the message had before", "why_tests_cant": "All byte strings, including malformed ones.", "anchors": ["adc/marshal.go: Unmarshal", "adc/marshal.go: unmarshalValue", "adc/messages.go: Status.UnmarshalADC", "adc/messages.go: Fields.UnmarshalADC", "adc/files.go: GetRequest.UnmarshalADC", "adc/types.go: ModFeatures.UnmarshalADC", "adc/hub.go: GetPassword.UnmarshalADC"]}
{"id": "C70", "title": "Unknown parameters and parameter order do not matter", "statement": "Among the named parameters of a message, those with unknown tags are ignored wherever they stand, and parameters with different tags can be given in any order: the result, or the error, is the same.", "quantifier": "every message type, every list of parts, every unknown parameter, every exchange of neighbours", "why_tests_cant": "All lists of parameters and all their orders.", "anchors": ["adc/marshal.go: Unmarshal"]}
{"id": "C71", "title": "NMDC messages are written in the documented form", "statement": "What an NMDC message writes is the documented form of its type: literal separators, its texts and names escaped and recoded, its numbers in decimal, its hashes in base32, in the documented order. It is refused exactly if one of those pieces cannot be written or the message has no form. The line is a dollar sign, the command, a space, that text and a bar.", "quantifier": "every message of every type, every text encoder, every order in which a map may be listed", "why_tests_cant": "All values of all message types and all encoders.", "anchors": ["nmdc/msg_chat.go", "nmdc/msg_ctm.go", "nmdc/msg_search.go", "nmdc/msg_user.go", "nmdc/message.go: Marshal", "nmdc/types.go: Name.MarshalNMDC", "nmdc/types.go: String.MarshalNMDC"]}
{"id": "C72", "title": "NMDC payloads are read in the documented form, and nothing else is", "statement": "Decoding an NMDC payload into a message succeeds with a given value exactly if the payload is written in the documented way for that value: cut at the documented separators (first, last or every one), with the name and text rules, the numbers with spaces around them, the documented optional fields, and the old value kept for what the payload does not say. Everything else is refused with an error.", "quantifier": "every byte string, every message type, every value the message had before, every text decoder", "why_tests_cant": "All byte strings; both what is accepted and what is refused.", "anchors": ["nmdc/msg_chat.go", "nmdc/msg_ctm.go", "nmdc/msg_search.go", "nmdc/msg_user.go", "nmdc/msg_files.go", "nmdc/msg_lock.go", "nmdc/message.go: Unmarshal", "nmdc/types.go: Name.UnmarshalNMDC", "nmdc/types.go: String.UnmarshalNMDC"]}
{"id": "C73", "title": "Reading always returns", "statement": "Every call on a line reader (ReadLine, Read, EnableZlib, reads and Close of a binary section) ends with a result when the transport's data ends, whatever chunks and errors the transport delivers, whatever hooks drop and however the compressed data is formed; and every successful call consumes input.", "quantifier": "all reader states, all finite transport scripts followed by end of file, all hooks, all decompressors and schedules, all calls", "why_tests_cant": "A loop that makes no progress shows up only for particular combinations of empty reads, dropped lines, section ends and partial decompressor output.", "anchors": ["lineproto/reader.go: Reader.ReadLine, Reader.Read, Reader.EnableZlib, binaryReader.Close"]}
{"id": "C74", "title": "The line reader never panics", "statement": "No sequence of calls on a line reader panics, whatever bytes, chunks and errors the transport delivers.", "quantifier": "all call histories, all transport scripts, all hooks, all decompressors", "why_tests_cant": "Needs every history of calls combined with every behaviour of the transport, including empty reads inside compressed sections.", "anchors": ["lineproto/reader.go: bufReader.ReadByte, bufReader.peek, Reader.ReadLine, Reader.Read, Reader.EnableZlib"]}
{"id": "C75", "title": "The compression level asked for is the one used", "statement": "When EnableZlibLevel(lvl) succeeds, the section that begins is compressed at level lvl by a fresh or reset compressor, whatever the levels of earlier sections of the connection were.", "quantifier": "all call histories before the call, all levels, all sink behaviours, all compressors", "why_tests_cant": "The compressor is cached between sections; a stale level is invisible in the data the peer reads.", "anchors": ["lineproto/writer.go: Writer.EnableZlibLevel"]}
{"id": "C76", "title": "Reading a message always returns", "statement": "ReadMsg, ReadMsgTo and ReadMsgToAny of an NMDC reader, and ReadPacket, ReadPacketRaw, ReadInfo and ReadClient of an ADC reader end with a result when the transport's data ends, whatever the peer sent, whatever the callbacks drop, and however the data is split and compressed.", "quantifier": "all reader states, all finite transport scripts followed by end of file, all callbacks, all decompressors, all calls", "why_tests_cant": "The loops skip keep-alive lines, dropped and undecodable messages; that each round consumes input must hold for every combination of callbacks and input.", "anchors": ["nmdc/reader.go: Reader.ReadMsg, Reader.ReadMsgTo, Reader.ReadMsgToAny", "adc/reader.go: Reader.ReadPacket, Reader.ReadPacketRaw, Reader.ReadInfo, Reader.ReadClient"]}
{"id": "C77", "title": "What a peer must send to crash a reader", "statement": "If reading a message panics, then the peer has sent one of the lines of a fixed list: for NMDC a search by a hash of 40 characters or more; for ADC a feature packet that ends inside a selector, a connection or file request without enough parts, or a password, search or result whose hash is 40 characters or more. Every payload and packet of the list does panic. No other input, callback or split of the data makes a reader panic.", "quantifier": "all reader states reached by any calls, all transport scripts, all callbacks, all byte strings", "why_tests_cant": "All inputs; the list must be complete.", "anchors": ["nmdc/reader.go: Reader.readMsgTo", "nmdc/msg_search.go: Search.UnmarshalNMDC", "adc/reader.go", "adc/packets.go: DecodePacketRaw", "adc/marshal.go: Unmarshal", "tiger/tiger.go: Hash.UnmarshalBase32"]}
{"id": "C78", "title": "The tree hash of any reader", "statement": "For every reader, TreeLeaves returns the leaf hashes of the pieces its reads give, cut by the documented buffer of one block, up to the first empty read or error; an error of the reader is returned; two readers whose pieces differ have different tree hashes unless the hash function collides.", "quantifier": "all readers, as all sequences of read results", "why_tests_cant": "All ways to split the data.", "anchors": ["tiger/tth.go: TreeLeaves, Leaves.TreeHash, TreeHash"]}
{"id": "C79", "title": "Lines and buffers of the line reader do not interfere", "statement": "Whatever a program writes into the lines ReadLine returned, into the buffers it gives to Read and into its other memory, later calls return what they would have returned otherwise. A returned line stays as it was returned until the program writes to it, gives its memory to Read or reads the next line; the reader writes to no other memory the program knows. Reading the next line does overwrite the last one.", "quantifier": "all histories of calls interleaved with writes and allocations of the caller, all transport scripts, all decompressors, all growth policies of append, all junk a Read leaves behind its data", "why_tests_cant": "Aliasing of internal buffers shows only for particular sizes and orders of calls.", "anchors": ["lineproto/reader.go: Reader.ReadLine, Reader.Read, Reader.EnableZlib, Reader.Binary, bufReader"]}
{"id": "C80", "title": "Messages of the NMDC reader keep their contents", "statement": "A message returned by ReadMsg, ReadMsgTo or ReadMsgToAny says the same forever, whatever is read afterwards, unless the program writes to the data of the message itself. Whatever the program writes to the memory it knows, including lines shown to callbacks and in errors, later reads return what they would have returned otherwise. The error for a message of another type keeps the command it reports until the next line is read; after that the command in it may change.", "quantifier": "all histories of reads, calls of the line reader, changes of decoder, limits and callbacks, and writes and allocations of the caller; all transport scripts, decompressors, growth policies of append and junk left in buffers", "why_tests_cant": "Sharing of memory shows only when a later line reuses the same buffer, for particular sizes and orders of calls.", "anchors": ["nmdc/reader.go: Reader.ReadMsg, Reader.ReadMsgTo, Reader.ReadMsgToAny, ErrUnexpectedCommand", "nmdc/message.go: RawMessage.UnmarshalNMDC"]}
{"id": "C81", "title": "Packets and messages of the ADC reader keep their contents", "statement": "A packet or message returned by ReadPacket, ReadInfo or ReadClient says the same forever, whatever is read afterwards, unless the program writes to the data of the message itself. A packet returned by ReadPacketRaw says the same until the next line is read, and may change afterwards. Whatever the program writes to the memory it knows, including the data of raw packets, later reads return what they would have returned otherwise.", "quantifier": "all histories of reads, calls of the line reader, changes of the callback, and writes and allocations of the caller; all transport scripts, decompressors, growth policies of append and junk left in buffers", "why_tests_cant": "Sharing of memory shows only when a later line reuses the same buffer, for particular sizes and orders of calls.", "anchors": ["adc/reader.go: Reader.ReadPacket, Reader.ReadPacketRaw, Reader.ReadInfo, Reader.ReadClient", "adc/packets.go: DecodePacket, DecodePacketRaw", "adc/messages.go: UnmarshalMessage, RawMessage"]}
{"id": "C82", "title": "Application and version of a user", "statement": "Normalize splits the version of a user who gives no application at its last space: what comes before is the application, what comes after is the version. All other users stay as they are. Nothing is lost but a single leading space, and normalizing twice is the same as once.", "quantifier": "all applications and versions", "why_tests_cant": "A test tries a handful of version strings; the claim is about every string, with any number of spaces.", "anchors": ["adc/user.go: UserInfo.Normalize"]}
{"id": "C83", "title": "Classes of ADC statuses", "statement": "The first digit of a status received is its severity and the other two are its code. Ok holds exactly for severity 0 and Recoverable exactly for 0 and 1. Err gives no error exactly for severity 0, the error for a missing file exactly for the code 51 of other severities, and otherwise an error that holds the status.", "quantifier": "all statuses of three digits, with any text or none", "why_tests_cant": "There are a thousand statuses with arbitrary texts; tests look at a few.", "anchors": ["adc/messages.go: Status.UnmarshalADC, Status.Ok, Status.Recoverable, Status.Err"]}
{"id": "C84", "title": "Character references in NMDC text", "statement": "In texts received, a decimal or hexadecimal reference to a number below 2^31 is read as the UTF-8 character of that number, with the HTML rules for 0, surrogates, numbers above 0x10FFFF and 0x80 to 0x9F; a reference by name is read as the value the HTML table gives; an ampersand before anything but a letter, digit, # or ; and every other byte stand for themselves. Larger numbers wrap around. Without its semicolon a decimal number of two digits or more and any hexadecimal number is still a reference; a single decimal digit, and '&#' or '&#x' without a number, stand for themselves.", "quantifier": "all sequences of bytes and references", "why_tests_cant": "There are unboundedly many texts and a million characters with several spellings each.", "anchors": ["nmdc/types.go: Unescape, UnescapeBytes, String.UnmarshalNMDC"]}
{"id": "C85", "title": "Encoding of structs other packages define", "statement": "Marshal of a struct with fields of supported types panics exactly when a field that is written is, or holds, a nil pointer to a type with an encoder of its own; otherwise it succeeds. A field is written when it has no tag, is required or is not zero.", "quantifier": "all lists of fields, all values", "why_tests_cant": "Message types are registered by other packages, so the struct types are not known here.", "anchors": ["adc/marshal.go: Marshal, marshalValue, isZero"]}
{"id": "C86", "title": "Changing the text encoding while messages are read or written", "statement": "SetEncoder and SetDecoder may be called by other goroutines and by callbacks at any time. A WriteMsg uses for all its messages the encoder that was set when it began, and the results, the bytes sent and the final encoder are those of the same calls made one after the other. A ReadMsg, ReadMsgTo or ReadMsgToAny returns what it returns when nobody interferes, with the decoder that was set when it began; and if OnUnknownEncoding returns no decoder, all calls together are equivalent to the same calls one after the other. If it does return one, a SetDecoder at the same time is lost.", "quantifier": "all interleavings of SetDecoder and SetEncoder calls with any sequence of calls of a reader or writer, all streams, callbacks and messages", "why_tests_cant": "The number of interleavings is unbounded and a test cannot force a particular one.", "anchors": ["nmdc/reader.go: Reader.Decoder, Reader.SetDecoder, Reader.readMsgTo", "nmdc/writer.go: Writer.Encoder, Writer.SetEncoder, Writer.WriteMsg"]}
{"id": "C87", "title": "ADC packets are passed on unchanged", "statement": "A packet that was read without decoding its message and is written again gives one line, and every reader decodes that line to the same packet; writing it a second time changes nothing. For the kinds I, H, C, B, D and E the line is the one received, except that a space before the end of a line without payload is dropped; for U the id is written in its usual spelling and for F the selectors are written with one space between them, and the payload is the one received. Excepted are packets whose last id reaches over the end of the line, which become two lines.", "quantifier": "all lines accepted by the decoder", "why_tests_cant": "A hub passes on whatever its clients send; the set of accepted lines is infinite and includes unusual spellings.", "anchors": ["adc/packets.go: DecodePacketRaw, MarshalPacketADC and UnmarshalPacketADC of all packets"]}
{"id": "C88", "title": "Every write is under the deadline", "statement": "When the Timeout callback is set, every write on the transport happens after a Timeout(true) that succeeded and before the Timeout(false) that belongs to it; when a call returns or panics the deadline is off again, unless Timeout(true) failed in that call; after such a failure nothing is written by that call and the callback is not called again.", "quantifier": "all histories of calls of a line writer, all answers of the transport and of the callback, all compressors", "why_tests_cant": "The order must be right for every history, every buffer fill level and every error of the transport; a deadline left on or a write without one shows only on a connection that stalls.", "anchors": ["lineproto/writer.go: Writer.Timeout, Writer.WriteLine, Writer.Flush, Writer.Write, Writer.EnableZlibLevel, Writer.DisableZlib, Writer.Close"]}
{"id": "C89", "title": "Registering message types", "statement": "A sequence of RegisterMessage calls panics exactly when a name comes twice. Otherwise every name has the type it was registered with and no other name has one, whatever the order of the calls; later calls leave earlier ones as they are. Loading the packages nmdc and adc does not panic, in whatever order their files are initialised. RegisteredTypes lists the names once each in ascending order, whatever the order of the map, and IsRegistered agrees with it. After a user has registered types, the package's names still make the package's messages, the user's names make the user's types and all others make raw messages. Only the type of a message is registered, not its value: a raw message registered under a free name makes the lines of that name be read without it, and written again without it.", "quantifier": "all sequences of registrations, all orders of initialisation and of map iteration, all names", "why_tests_cant": "Other packages may register any names in any order; the order of map iteration is random.", "anchors": ["nmdc/message.go: RegisterMessage, NewMessage, RegisteredTypes, IsRegistered", "adc/messages.go: RegisterMessage", "nmdc/msg_*.go, adc/*.go: init"]}
{"id": "C90", "title": "Packets that are used again", "statement": "A packet value may be used for several messages. MarshalPacketADC appends the line of the packet to the buffer, whatever is in it, and panics without message. DecodeMessage replaces a raw message by the decoded one; when it fails, and on a message that is nil or decoded already, it changes nothing, and a second call after a successful one changes nothing. DecodeMessageTo succeeds only on a raw message with the command of its target and never changes the packet. UnmarshalPacketADC gives the same packet as it gives for a new value of that kind; when it fails the old message stays, and so do the other fields, except in a feature packet with a selector that is cut off, which then has the new source and the selectors before that one. No history of calls changes the kind of a packet, and calls that fail, DecodeMessageTo and MarshalPacketADC leave the message.", "quantifier": "all packets with and without message, all histories of calls, all lines, targets and buffers", "why_tests_cant": "What a method does depends on the state earlier calls left; the histories are unbounded.", "anchors": ["adc/packets.go: Packet, decodeMessage, decodeMessageTo, MarshalPacketADC and UnmarshalPacketADC of all packets"]}
{"id": "C91", "title": "Which NMDC messages come back from the wire", "statement": "Without a text codec, a message of any NMDC type can be written, and a fresh message of its type reads what was written as the same message, exactly if its fields meet a condition given for each type: names and texts are UTF-8 without NUL and without old escape sequences, names have no $, CR, LF or TAB and at most 256 bytes when escaped, numbers are in range, and no field contains what separates it from the next one on the wire. Every message that does not meet its condition is refused, or cannot be read, or is read as another message. The extra fields of a MyINFO may be written in any order.", "quantifier": "all messages of all types, all orders in which a map is iterated", "why_tests_cant": "The round trip is about every value of every field; that a condition is also necessary is about every value outside it.", "anchors": ["nmdc/msg_*.go: MarshalNMDC and UnmarshalNMDC of all types", "nmdc/types.go: Name, String, Escape, Unescape", "nmdc/extensions.go: Supports"]}
{"id": "C92", "title": "Variables that hold a hash or an identifier", "statement": "FromBase32, UnmarshalText and, for a CID, UnmarshalADC set a variable to exactly the 24 bytes that the text names, or return an error and leave the variable as it was; they never panic, and after any series of such calls the variable holds what the last text that names anything names. UnmarshalBase32 and UnmarshalADC of a hash set the variable to what the buffer names; if the buffer names nothing the call fails, or panics exactly if its first 40 characters are all in the alphabet, and then the variable is not left as it was: its first bytes are overwritten with what the first characters give and the others are kept. The parsing of constants returns what the text names or panics. The hexadecimal form consists of the 48 small digits of the number that the bytes make, and different hashes have different forms; what String, MarshalText and MarshalADC give sets any variable to the same hash. A session identifier is set to a text of four bytes, and left by any other text.", "quantifier": "all values of the variable, all texts and buffers, all series of calls", "why_tests_cant": "What a refused text leaves behind depends on the old value of the variable and on where in the text the fault is.", "anchors": ["tiger/tiger.go: MustParseBase32, Hash.IsZero, Hash.String, Hash.Hex, Hash.UnmarshalBase32, Hash.FromBase32, Hash.UnmarshalText, Hash.MarshalADC, Hash.UnmarshalADC", "adc/types/types.go: MustParseCID, MustParseCIDP, CID.FromBase32, CID.UnmarshalText, CID.UnmarshalADC, SID.UnmarshalADC"]}
{"id": "C93", "title": "How much a writer keeps back", "statement": "After any lines, flushes and raw writes on a Writer without compression and hooks that all succeeded, the transport has got everything that was given to the writer except the last few bytes, and their number is exactly determined by the lengths of the lines: a line is kept back if it fits into what is left of the buffer; if it does not and nothing was kept back it is sent at once, otherwise the buffer is filled and sent and the rest of the line is kept if it fits. A flush and a raw write leave nothing. At most the size of the buffer is kept back, which is the size asked for, or 4096 bytes if none or no positive one was asked for. So lines that fit into the buffer are not sent before a flush, and lines that do not are sent in part without one.", "quantifier": "all buffer sizes, all series of calls, all transports and timeout callbacks under which they succeed", "why_tests_cant": "How much has been sent depends on the lengths of all lines since the last flush and on the size of the buffer.", "anchors": ["lineproto/writer.go: NewWriter, NewWriterSize, Writer.WriteLine, Writer.Flush, Writer.Write"]}
{"id": "C94", "title": "Which ADC messages come back from their payload", "statement": "For every ADC message it is decided exactly whether encoding it and decoding the payload gives the same message. Read into a new value of its type it comes back if and only if: the session ids in fields have no space; the path of a user command is not empty and its elements have no slash; the features of a user have no space or comma; the code of a status is from 0 to 99, it is 0 if the severity is negative, and both together fit into 64 bits; the features of a SUP map have no space and no escape sequence; the parameters of a user update have nothing that must be escaped. All other messages come back always. Read under the name of their command, INF messages that are not user information do not come back, and raw messages only if their command has no type. Every message other than STA and SUP that was received can be sent on: it is received as the same message again. A received status can be sent on exactly if its code is not negative, a received feature map exactly if its features have no space and no escape sequence.", "quantifier": "all messages of all types whose numbers have 64 bits, all payloads, all ways in which floating point notation is read", "why_tests_cant": "The exceptions are single bytes in single fields of single types; round-trip tests use values that come back and say nothing about the others.", "anchors": ["adc/marshal.go: Marshal, Unmarshal", "adc/messages.go: UnmarshalMessage, Status, Fields", "adc/types.go: ModFeatures, ExtFeatures, Path", "adc/hub.go", "adc/user.go", "adc/chat.go"]}
{"id": "C95", "title": "Which ADC packets come back from their line", "statement": "A packet, encoded as a line and decoded with DecodePacket, comes back with the same kind, addresses and selectors and the same message if and only if its message comes back from its payload (C94), the message has the type its command stands for, there is no NUL byte in the command, the addresses, the selectors and the payload, and, for a packet addressed by features, the payload does not begin with a plus, a minus or a space. In particular an empty text followed by a flag comes back as another text in a packet addressed by features, and in no other packet.", "quantifier": "all packets of all kinds with all messages whose values Go can hold, all spare capacities of the line's buffer", "why_tests_cant": "a test sends the texts somebody thought of; that no message at all survives the loss of the spaces before its payload needs an argument for every type of message", "anchors": ["adc/packets.go: DecodePacket, MarshalPacketADC, FeaturePacket.UnmarshalPacketADC", "adc/messages.go: UnmarshalMessage", "adc/marshal.go: Marshal, Unmarshal"]}
{"id": "C96", "title": "Which lines are ADC packets", "statement": "For every line that ends with its only newline it is decided exactly whether DecodePacketRaw accepts it and as which packet: the letter of the kind, three bytes of the command, a space and the address (one id, two ids with a space between them, 39 characters of base32, or none), then a space and the payload or nothing; after the id of a packet addressed by features come signs with four bytes each, spaces are skipped, and the payload begins at the first other byte. There must be no NUL byte. The only other lines that are accepted are those whose last id is one byte short: the newline is taken for its last byte. Whether a line is accepted, and as what, does not depend on how the buffer continues behind it.", "quantifier": "every line, every packet, every spare capacity of the line's buffer", "why_tests_cant": "that nothing else is accepted is a statement about all other lines", "anchors": ["adc/packets.go: DecodePacketRaw, UnmarshalPacketADC of all packets"]}
{"id": "C97", "title": "What is left of the previous value of a reused message", "statement": "A line decoded into a message value that was used before gives, field by field, either what it gives in a fresh message or the value the field had; which of the two is decided by the line alone and is stated for every type: the name of a chat message that does not begin with <, path and command of a user command with only type and context, the sender of a connection request without one, the error of an empty $Failed, fields missing from $HubINFO, flags of file requests and of connection requests (never taken back), address or user, pattern or hash, and an empty size of a search, hub name or hash and the receiver of a result, and in $MyINFO all the tag does not mention, an empty connection and an empty share size. Everything else comes from the line. Whether a line is refused, and with which error, does not depend on the message it is decoded into.", "quantifier": "every message type, every previous value, every line, every text encoding", "why_tests_cant": "needs all pairs of a previous value and a line; tests decode into fresh values", "anchors": ["nmdc/reader.go: Reader.ReadMsgTo", "nmdc/msg_*.go: UnmarshalNMDC of all messages"]}
{"id": "C98", "title": "A second attempt with another text encoding is as good as a first", "statement": "When a line cannot be decoded because its text is not in the current encoding, the decoder has already written part of the line into the message. If OnUnknownEncoding then returns a decoder, the line is decoded once more into that half-written message; the result, message or error, is exactly what the line would have given with that decoder from the start, for ReadMsg, and for ReadMsgTo with whatever the message of the caller was before, and the decoder is the one of the reader from then on. A failed decoding never changes the type of the message.", "quantifier": "every message type, every previous value, every line, every pair of decoders, every callback", "why_tests_cant": "the half-written message depends on where in the line the first bad text is; needs all lines, all previous values and both encodings", "anchors": ["nmdc/reader.go: Reader.OnUnknownEncoding", "nmdc/reader.go: Reader.readMsgTo", "nmdc/msg_*.go: UnmarshalNMDC of all messages"]}
{"id": "C99", "title": "A line that some text encoding decodes is not lost", "statement": "If some text decoder decodes the arguments of a line, then a decoder that never fails on bytes (or no decoder at all) decodes them too or reports an unknown encoding, and nothing else; so only texts, and never the structure of a line, depend on the encoding. The exceptions are the file name in ADCGET and ADCSND and the path in UserCommand, whose encoding errors are reported as other errors. Hence with an OnUnknownEncoding that always returns the decoder D, a stream of lines of other types that D decodes is read without a single error: ReadMsg returns a message for every line except keep-alives, decoded with the decoder of the reader up to the first line it does not understand and with D from there on.", "quantifier": "every message type, every pair of decoders (the current one total), every line, every stream of lines of any length", "why_tests_cant": "needs every position of a bad text in every line, and streams of any length with a change of encoding at any point", "anchors": ["nmdc/reader.go: Reader.OnUnknownEncoding", "nmdc/reader.go: Reader.readMsgTo", "nmdc/types.go: Name.UnmarshalNMDC, String.UnmarshalNMDC", "nmdc/msg_*.go: UnmarshalNMDC of all messages"]}
{"id": "C100", "title": "Hooks of the line reader may keep state and act on the reader", "statement": "A reader with OnLine hooks does what a program without hooks does by hand: it calls ReadLine, shows each line to the hooks in the order of registration up to the first that does not accept it, returns the line if all accept it, returns a hook's error with no line, and calls ReadLine again if a hook wants the line dropped. This holds for hooks that keep state of any kind and for hooks that change the reader, as long as they do not close it or register further hooks. Hence, however the stream comes in pieces, hooks that keep state see every line once and in order, and ReadLine returns exactly what they make of the sequence of lines; and a hook may switch decompression on after a line, with the same results as a program that does so after ReadLine has returned the line.", "quantifier": "all lists of hooks with any state, all states, all readers with any buffered data, all streams in all chunkings, all programs that switch decompression on after given lines", "why_tests_cant": "needs hooks of all kinds, in every state of the reader, with lines at every position in its buffers", "anchors": ["lineproto/reader.go: Reader.OnLine", "lineproto/reader.go: Reader.ReadLine", "lineproto/reader.go: Reader.EnableZlib"]}
{"id": "C101", "title": "What Unmarshal makes of a buffer", "statement": "Unmarshal of a buffer skips leading keep-alives, decodes the first line after them exactly as ReadMsg on a new connection would, and does not look at what follows that line. If the buffer ends before the end of a line the result is io.ErrUnexpectedEOF, also for an empty buffer and for keep-alives only. No buffer makes it return io.EOF. Every buffer whose lines are within the default limit is covered, unless the decoder of the first line panics.", "quantifier": "all buffers with lines of at most 32768 bytes, all text decoders", "why_tests_cant": "needs every buffer, with any number of keep-alives and anything behind the first line", "anchors": ["nmdc/message.go: Unmarshal", "nmdc/reader.go: Reader.ReadMsg"]}
{"id": "C102", "title": "A line can be used again as soon as it is written", "statement": "The writers copy what they are given before they return. Whatever a program and its line callbacks do with their memory before, during and after a call (overwrite the slice that was written, reuse one buffer for all lines, write into the slice a callback was shown), the results of all calls, the panics, and all that the transport gets are those of a writer that is given values: each slice counts with what was in it when the call was made, a line with what was in it when the callbacks were done. The writer never writes to memory of the program. The one exception is on the side of the callbacks: the slice of a message shown to a line callback is the message buffer, and the next message that fits is encoded over it, so a callback must not keep it.", "quantifier": "all programs that interleave calls, callbacks and writes to memory they know, all buffer sizes, transports, timeouts and compressors", "why_tests_cant": "aliasing shows only for particular buffer sizes, short writes and overwrites between calls; needs every interleaving", "anchors": ["lineproto/writer.go: Writer.WriteLine, Writer.Write, Writer.Flush, Writer.OnLine", "nmdc/writer.go: Writer.WriteMsg", "adc/writer.go: Writer.WritePacket"]}
{"id": "C103", "title": "What a hub address stands for, as text", "statement": "With the URL parser and printer of the standard library: scheme://name or scheme://name:port, with any number of slashes after it, stands for exactly that host and port, and its normal form is the same text without the slashes, with dchub in place of nmdc; ADC addresses without a port have no normal form. A name without a scheme is an NMDC hub, unless it begins with adc: then it is refused. The normal form of any address, normalized again, is itself, and is parsed to a URL with the same scheme, user, host, path, query and fragment as the address. The only exception is a host in brackets with a zone that holds a byte above 127: its normal form is not an address. A trailing slash can change more than itself: with it, an escaped slash in the path is written as a slash.", "quantifier": "every address text; all plain names, ports and numbers of slashes", "why_tests_cant": "all texts, with all ways of escaping, users, zones, queries and fragments", "anchors": ["conn.go: ParseAddr, NormalizeAddr", "adc/conn.go: ParseAddr, NormalizeAddr", "nmdc/conn.go: ParseAddr, NormalizeAddr"]}
{"id": "C104", "title": "What a refused payload leaves in an ADC message", "statement": "Unmarshal and DecodeMessageTo write into the caller's message. Whether a payload is accepted, and with which error it is refused, does not depend on what the message held, and its type stays. After a payload is refused: a status and a session identifier are as before; a parameter list is empty; a struct has the new values of all fields, in the order of the struct, before the one that is refused or has no part, the old values of all fields after it, and the old value of that field too, except that a hash begins with the bytes of the first characters; a file request has the type, path, offset and length read so far, and a number that is refused is 0, or the nearest number of 64 bits if it is too large; feature changes have been applied up to the bad name, removals first, to a map that is there even if it was nil; a salt is as long as the text could give, begins with the bytes of the first characters and ends with zeros. DecodeMessageTo leaves the target alone if the packet has no raw message of its command.", "quantifier": "every message of every type with any old value, and every payload", "why_tests_cant": "all payloads, refused at any place, on top of any old value", "anchors": ["adc/marshal.go: Unmarshal, unmarshalValue", "adc/files.go: GetRequest.UnmarshalADC", "adc/hub.go: GetPassword.UnmarshalADC, SIDAssign", "adc/messages.go: Fields.UnmarshalADC, Status.UnmarshalADC", "adc/types.go: ModFeatures.UnmarshalADC", "adc/packets.go: decodeMessageTo"]}
{"id": "C105", "title": "Hooks of the line reader may write to the line, keep it and use memory", "statement": "OnLine hooks get the slice that ReadLine returns, and may write to it and to any memory they know, keep the slice, and use the reader, except to close it or register hooks. In the model with memory ReadLine of a reader with hooks then does exactly what a program does that calls ReadLine of a reader without hooks, shows the slice to the hooks in order of registration, and calls ReadLine again when a hook drops the line: same slice, same error, same state of the hooks, same reader, same memory; and it panics only where that program would. A whole program with hooks is the program without them in which every ReadLine is replaced so, and the calls in that one return what the model of values says: no write of a hook, to this line or an earlier one, gets into any later line. In particular, if hooks only write, the lines they are shown are the next lines of the stream, and the slice returned is the last of them, with the length it had.", "quantifier": "all lists of hooks that do what programs can do, with any state; all programs, memories, growth strategies of append, decompressors and streams in all chunkings", "why_tests_cant": "needs hooks that write to every piece of memory they can reach, with lines at every position of the reader's buffers", "anchors": ["lineproto/reader.go: Reader.OnLine", "lineproto/reader.go: Reader.ReadLine", "lineproto/reader.go: Reader.readLine"]}
{"id": "C106", "title": "ADC packets with messages of the caller's own types", "statement": "A program may send messages of its own types: with a method MarshalADC, or structs whose fields, also elements of slices, have such methods. If the methods only write to the buffer they are given, MarshalPacketADC of every kind of packet puts the line behind what is in the buffer: kind, command, addresses, then a space and the payload unless it is empty, then the delimiter. The payload of a struct is its values with their tags in the order of the struct, separated by spaces, without the zero ones that are not required. If a method fails or panics, the error is returned, and the line up to that place is in the buffer. For the messages of the library this is what the model of values says. A writer is not disturbed by a packet that could not be encoded, also if the method panicked and the program recovered, whatever the method did with the buffer: all other calls end as they would without it and the same bytes are sent. A program that writes messages of any types sends what it would send with raw messages of the same commands and payloads, and a packet is read back as such a raw message exactly if it contains no NUL and, in a feature packet, the payload does not begin like a selector.", "quantifier": "all messages of all types, with any methods; all packets, buffers, sequences of calls and states of the writer", "why_tests_cant": "the methods are arbitrary code, and may fail at any point of any packet", "anchors": ["adc/marshal.go: Marshal, marshalValue, Marshaler", "adc/packets.go: MarshalPacketADC of all packets", "adc/writer.go: Writer.WritePacket"]}
{"id": "C107", "title": "Writing NMDC messages of the caller's own types", "statement": "A program may send messages of its own types, with any method MarshalNMDC. If the method only appends to the buffer it is given, MarshalTo puts the line behind what is in the buffer: the dollar, the name and a space, the payload, the delimiter; without payload the delimiter takes the place of the space. A message with neither name nor payload has no line: MarshalTo panics if the buffer is empty and otherwise overwrites its last byte. If the method fails or panics, its error is returned, or the panic goes on, and what it has written stays in the buffer. The hooks of a writer are asked in the order in which they were added, and the first that does not accept ends the call. A writer sends a message that is accepted by all hooks and encoded, and does not send one that a hook refuses or that cannot be encoded, nor those after it in the same call; nothing of it is left for later calls, also if the method panicked and the program recovered, whatever the method did with the buffer. A program that writes messages of any types sends what it would send with raw messages of the same names and payloads, and each call ends the same way, but for the errors and panics of the methods.", "quantifier": "all messages of all types, with any methods; all buffers, encoders, sequences of calls and states of the writer", "why_tests_cant": "the methods are arbitrary code, and may fail at any point of any sequence of messages", "anchors": ["nmdc/message.go: Message, MarshalTo, Marshal", "nmdc/writer.go: Writer.WriteMsg, Writer.OnMessage, Writer.ZOnLevel"]}
{"id": "C108", "title": "Reading NMDC messages of types registered by the caller", "statement": "If a program has registered types of its own with RegisterMessage, ReadMsg and Unmarshal give for each line what they would give without these types, except that the payload of a command with a registered name is decoded by the method of that type, given a fresh value: a raw message becomes a value of the caller's type, or the method's error, or its panic. A whole session of reads, with decompression switched on in between, sees the same lines. ReadMsgTo with a value of any type decodes the line into it if the names agree, and returns an error that shows the line otherwise, leaving the value alone; ReadMsgToAny decodes into the first value of that type, unless there is a raw message before it. A value of the caller's with an empty name is never filled in, neither from chat messages nor from commands. An end of file reported by the caller's method is turned into an unexpected one by Unmarshal. Hooks for messages are asked in the order in which they were added, and the first that does not accept decides; the callback for failed decodings gets the line and the error and decides what is returned. If a hook drops a message or the callback tells to go on, the call goes on like ReadMsgTo with that message, so only lines of its type are taken.", "quantifier": "all types with any methods, all sets of registered names, all inputs and ways the transport splits them, all decoders and callbacks", "why_tests_cant": "the methods are arbitrary code, and the input is arbitrary", "anchors": ["nmdc/message.go: RegisterMessage, NewMessage, Unmarshal", "nmdc/reader.go: Reader.ReadMsg, Reader.ReadMsgTo, Reader.ReadMsgToAny"]}
{"id": "C109", "title": "An NMDC connection between programs with their own types", "statement": "One side writes messages of any types, of its own or of the library, in any number of calls, with keep-alives and compressed phases, and all calls succeed. The other side has registered types of its own and switches on decompression after each ZOn. It receives the messages in order, each decoded by the method of the type registered for its name, by the caller or by the library, or else as a raw message, and then the end of the stream. The messages must encode to a payload without delimiter and NUL, have acceptable names, and fit the limits.", "quantifier": "all sequences of calls, all messages and methods on both sides, all buffer sizes, encodings, compressors and decompressors that fit together, ways the transport splits the bytes, and behaviours of the sink and the timeout callback", "why_tests_cant": "methods, messages, schedules of the transport and sizes are unbounded", "anchors": ["nmdc/writer.go: Writer.WriteMsg, Writer.ZOnLevel", "nmdc/reader.go: Reader.ReadMsg", "nmdc/message.go: RegisterMessage, MarshalTo", "lineproto/reader.go: Reader.EnableZlib"]}
{"id": "C110", "title": "Reading ADC messages into the caller's own types", "statement": "A program may decode ADC messages into types of its own: types with an UnmarshalADC method, or structs whose fields have any Go types. A struct is filled exactly if every tagged field can take what it is given: a positional field the next part of the text, any other field the values behind its tag, a method the first of them, a slice all of them, every other type a single one. If a field cannot take its value, the fields before it have their new values, those behind it their old ones, and the field itself its old value unless its method changed it. A struct that was written by another program with the same tags receives exactly the values that were written under each tag. Numbers that fit a field are read back. After the program has registered its types, packets with these names decode to values of these types and all other packets to what they were before. For the structs of the library this is the decoder of the other properties.", "quantifier": "all Go struct types (any list of fields, tags, exported or not, of string, bool, integer, pointer, slice, method and other types), all methods including those that fail or panic, all texts, all values before the call, all registries", "why_tests_cant": "the types and methods of the callers are not known to the library, and texts and values are unbounded", "anchors": ["adc/marshal.go: Unmarshal, unmarshalValue, Unmarshaler", "adc/messages.go: RegisterMessage, UnmarshalMessage, RawMessage.Decode", "adc/packets.go: decodeMessage, decodeMessageTo"]}
{"id": "C111", "title": "An ADC connection between programs with message types of their own", "statement": "One program writes packets with messages of its own types, with keep-alives, flushes and announced compressed phases; calls with messages that cannot be encoded may fail or panic in between, all others succeed. The other program has registered types of its own and calls any of the reading functions. It gets, for each packet that could be encoded and in order, what its call makes of the address, name and payload: ReadPacket the value of the type registered for the name, ReadPacketRaw the payload, ReadInfo and ReadClient the value or an error for packets of another kind; and then the end of the stream. A message that cannot be decoded, or whose decoding panics, does not disturb those after it.", "quantifier": "all message types and values, all registries, all sequences of calls on both sides, all buffer sizes, sinks, timeouts, compressors that fit together and splittings of the stream", "why_tests_cant": "the types are those of the callers; the lengths of conversations, splittings and schedules are unbounded", "anchors": ["adc/writer.go: Writer.WritePacket", "adc/reader.go: Reader.ReadPacket, ReadPacketRaw, ReadInfo, ReadClient", "adc/packets.go: DecodePacket, DecodePacketRaw", "adc/messages.go: RegisterMessage, UnmarshalMessage"]}
{"id": "C112", "title": "NMDC messages that are passed on", "statement": "A hub decodes a message from one client with the library and encodes the value for the others, which decode it. For every payload that a fresh value of a message type accepts, they get the same value exactly if it is one of those that come back from the wire (C91). For a payload without escapes these are all values but listed exceptions: a chat text without a name that begins with '<', a user command with a negative type, with only one of path and command or with a space at the end of its path, a connection request without recipient or whose kind does not fit its source, no extensions, a hub software with a space and no version, a file request with a length below -1, a search without a type or with a minimum but no restriction, a '$' in the path of a result, a user without mode or flag or with a mode or a key that has a meaning in the tag, and names that are longer than 256 bytes with their escapes. What passes one program passes any number of them, whatever the order of maps in each. A chat line with '<> ' before it is a text without a name for the hub and the line itself for the others. Encoding what was received, the program panics exactly after a chat line with neither name nor text ('<>', with a white space after it, '<' or nothing) and after a list of extensions with none in it.", "quantifier": "all message types, all payloads, all numbers of programs, all orders of map iteration, all tables of HTML entities", "why_tests_cant": "which of all payloads survive being decoded and encoded again is a question about every payload; the exceptions are few and far apart", "anchors": ["nmdc/message.go: Message", "nmdc/msg_chat.go: ChatMessage.MarshalNMDC, UnmarshalNMDC", "nmdc/msg_user.go: MyINFO.MarshalNMDC, UnmarshalNMDC", "nmdc/msg_search.go: Search, SR", "nmdc/msg_ping.go: HubINFO", "nmdc/msg_ctm.go: ConnectToMe", "nmdc/msg_files.go: ADCGet"]}
{"id": "C113", "title": "Flags of users, and messages as text", "statement": "IsSet and Is hold exactly if the two values have a flag in common: for each of the named flags exactly if it is in the set, for FlagTLS if encryption is on in one direction at least, for zero never, and for a type of an ADC user also if the peer sent a negative number. The text of an ADC error tells its code and its message, that of a field its tag and its value. What is sent of a chat message is its text form, escaped, exactly if its name holds neither '<' nor '>'; a chat line without escapes is shown as it was received exactly if it does not begin with '<' or has a name that is not empty, ended by '>' and one blank. Two different chat messages are shown differently if no name has a '>' in it and no text without a name begins with '<'.", "quantifier": "all flag bytes, all 64-bit user types, all errors, fields and chat messages, all chat lines without escapes", "why_tests_cant": "all pairs of sets and all texts", "anchors": ["nmdc/msg_user.go: UserFlag.IsSet", "adc/user.go: UserType.Is", "nmdc/msg_chat.go: ChatMessage.String", "adc/types.go: Error.Error", "adc/messages.go: Field.String"]}
{"id": "C114", "title": "Key prints of a PEM file", "statement": "The key prints of a file are exactly those of its certificates, in the order in which they stand in it. Blocks of other types, blocks with a character that is not base64 or with a last line that does not fit the first, blocks that are cut off before another one begins, lines that only begin like a block, and text between blocks neither count nor keep a later certificate from being found; blocks may have header lines, lines may have any length and be ended by LF or CRLF, and the last block need not be followed by the end of a line. A file without a certificate gives an error. What blocks a file has is unambiguous, and every list of blocks is that of some file. Two certificates without the end of a line between them, as when two files are joined, are both lost.", "quantifier": "all files made of text, blocks, broken blocks and beginnings of blocks, in any order and number", "why_tests_cant": "unboundedly many files, each a sequence of any length", "anchors": ["keyprint/keyprint.go: FromFile"]}
{"id": "C115", "title": "New private identifiers and the client identifiers made from them", "statement": "NewPID returns exactly the bytes its random source gave, completed with zeros, and the error of the source. If the source fills the buffer, two new identifiers are the same only if the source gave the same bytes twice. A source that gives less without an error makes an identifier that ends with zeros, without an error. The client identifier of a private one is its digest, all 24 bytes of it; two private identifiers with the same client identifier are a collision of the hash function. The text of a new identifier is read as the same identifier.", "quantifier": "all random sources that obey the contract of io.Reader, all hash functions, all identifiers", "why_tests_cant": "the random source and the hash function are arbitrary", "anchors": ["adc/types/types.go: NewPID, CID.Hash, MustParseCID", "tiger/tiger.go: HashBytes"]}
{"id": "C116", "title": "Hashing by pieces, and the hash functions themselves", "statement": "Whatever is written to a hash value of New, in whatever pieces, its Sum is the Tiger hash of all that was written since the beginning or the last Reset, appended to what Sum is given; Sum can be called at any time and changes nothing. HashBytes never panics and gives the 24 bytes of the Tiger hash; the client identifier of a private one is its Tiger hash. Every key print has 59 characters, 'SHA256/' and 52 of the base32 alphabet, and a peer passes the check with the key print of a certificate exactly if it has shown a certificate with the same SHA-256.", "quantifier": "all byte strings, all ways to cut them into pieces, all series of calls of Write, Sum and Reset, all certificates", "why_tests_cant": "unboundedly many ways to cut the data; the buffer of 64 bytes makes each of them take another path", "anchors": ["tiger/tiger.go: New, HashBytes", "adc/types/types.go: CID.Hash", "keyprint/keyprint.go: FromBytes", "keyprint/tlskp/tlskp.go: VerifyKeyPrint"]}
{"id": "C117", "title": "Integers written with a point or an exponent", "statement": "Exactly which texts an integer field of ADC accepts, and the value it then has: nothing gives zero; a decimal integer of 64 bits gives itself; every other text is read as strconv.ParseFloat reads it, in decimal or hexadecimal notation with underscores between digits, as the floating point number nearest to what is written (of two, the one with the even mantissa), and gives this number if it is whole, the machine's conversion of it if it does not fit into 64 bits, and leaves the field as it was if it is not whole or not a number; a number too large for floating point, and a text of no such form, are refused. A whole number of at most 53 bits is always read exactly, a binary fraction of at most 53 bits never as a whole number.", "quantifier": "all texts, all previous values of the field, all machines (as to the conversion of numbers that do not fit)", "why_tests_cant": "unboundedly many texts; rounding errors show on few of them", "anchors": ["adc/marshal.go: unmarshalValue"]}
{"id": "C118", "title": "NMDC texts in a code page", "statement": "With Windows-1251 or Windows-1252 (or any code page of 128 different characters behind ASCII) as the text encoding, a text can be encoded exactly if all its characters are in the page, and decoding gives it back. Every text of such characters without NUL and without one of the old escapes /%DCNnnn%/ is sent and received as it was, whatever of '$', '|' and '&' it has, and so is every name that can be sent and fits. A receiver without any of these takes every string of bytes as a text, valid UTF-8 or not, and sends it again as the same bytes. Spaces in searches do not depend on the page.", "quantifier": "all code pages that are proper, all texts, all strings of bytes", "why_tests_cant": "256 bytes per place of a text of any length; escapes and page interact", "anchors": ["nmdc/types.go: String.MarshalNMDC, String.UnmarshalNMDC, Name.MarshalNMDC, Name.UnmarshalNMDC", "nmdc/writer.go: SetEncoder", "nmdc/reader.go: SetDecoder"]}
{"id": "C119", "title": "Everything a reader hands out for people to read is UTF-8", "statement": "Whatever arrives, in whatever pieces and compressed or not, with whatever text decoder, callbacks and hooks: if ReadMsg returns a message, all its names, texts and search words are valid UTF-8. With ReadMsgTo and ReadMsgToAny the same is true of the caller's messages if it was before the call, also when the call fails in the middle of a message. A decoder that fails leaves valid texts behind.", "quantifier": "all byte streams and ways to cut them, all decoders, all behaviours of the callbacks, all 48 message types, all numbers of lines", "why_tests_cant": "every byte string in every field of every message type, and every place in which a decoder may stop", "anchors": ["nmdc/reader.go: ReadMsg, ReadMsgTo, ReadMsgToAny, OnUnknownEncoding", "nmdc/types.go: Name.UnmarshalNMDC, String.UnmarshalNMDC", "nmdc/msg_*.go: UnmarshalNMDC"]}
{"id": "C120", "title": "Compressed sections are zlib streams: what is written is read, and a stream with a wrong checksum is never accepted as complete", "statement": "Every zlib stream - a header for any level, any number of blocks of the three kinds (stored, in the fixed code, in a code of their own, with references back into earlier blocks), a last block and the checksum - is accepted and decompresses to what its blocks say, and what is written before a flush can be read before more arrives. Whatever a compressor chooses to write for the data, lines written to a connection, some of them in compressed sections, are the lines read on the other side, with nothing assumed about the compressor except that its blocks say the data. A stream that is accepted as complete ends with the checksum of exactly what came out, so no single byte of the data can have been changed. The lines of a damaged section are delivered before its checksum is compared; the error comes afterwards.", "quantifier": "all levels, all lists of blocks, all codes given by lengths without gaps, all data, all choices of the compressor, all ways to cut the stream, all byte strings as a body", "why_tests_cant": "the tests hold three sections of fixed bytes; streams of other compressors, other codes, references across blocks and damaged streams are not tried", "anchors": ["lineproto/reader.go: EnableZlib, zlibReader", "lineproto/writer.go: EnableZlib, EnableZlibLevel, DisableZlib, Flush", "compress/zlib, compress/flate, hash/adler32"]}
{"id": "C121", "title": "A compressed section that breaks the format is refused", "statement": "After a proper header and any proper blocks, each of these makes the whole section refused with an error, whatever follows: the reserved kind of block; a stored block whose length and complement do not fit; a reference to before the first byte; a symbol or a distance that stands for nothing; too many symbols or distances; lengths of words that give no code, for each of the three codes; a repetition without a length before it or beyond the last length. The two bytes of the header are accepted exactly if they name DEFLATE with a window of at most 32 KiB and no dictionary and are a multiple of 31. A section has one end: neither a beginning of it nor a continuation is a section. The reader of lines never takes a section with one of these faults, or with a checksum that is not that of its data, as ended: it goes on reading through the decompressor, and no call returns io.EOF. An error the transport returns together with a byte ends the section if the byte is within the checksum, or within the lengths or the data of a stored block (up to the end of the window of 32 KiB), and not the last byte of these; with that last byte, and with the byte in which a block begins after whole blocks, it is dropped.", "quantifier": "all lists of proper blocks before the fault, all codes, all tokens in the block before the fault, all bits after it, all pairs of header bytes", "why_tests_cant": "the tests contain no damaged section; the faults can be in every block, after every data and in every code", "anchors": ["lineproto/reader.go: EnableZlib, zlibReader, Read", "compress/flate: decompressor", "compress/zlib: reader.Reset"]}
{"id": "C122", "title": "A compressed section is accepted exactly if it has the format of zlib", "statement": "Bytes are accepted as a compressed section with some content if and only if they are a header of zlib (DEFLATE, window of at most 32 KiB, no dictionary, multiple of 31), blocks of RFC 1951 that say this content and of which only the last is marked as last, any bits that fill the last byte, and the Adler-32 checksum of the content. So no section has two contents, and the reader takes a section as ended if and only if it begins with something that has this format.", "quantifier": "all byte sequences and all contents; all blocks, codes, ways to say a length or a distance and filling bits", "why_tests_cant": "acceptance is a statement about all byte sequences, also those no compressor writes; the tests decompress a few sections made by one compressor", "anchors": ["lineproto/reader.go: EnableZlib, zlibReader, Read", "compress/flate: decompressor", "compress/zlib: reader"]}
{"id": "C123", "title": "Character references of HTML 5: all names, decoded within the bytes received", "statement": "In NMDC text every name HTML 5 has for a character or a pair of characters, with its semicolon, is replaced by those characters whatever follows, and the old names also without a semicolon where neither a letter nor a digit nor a semicolon follows; an old name means the same with its semicolon. Of any other name the longest beginning of two to six bytes that is an old name is replaced and the rest kept, and if there is none the text is kept with its &; so are nGt; and nLt;. Decoding never makes a text longer, so without a decoder for the encoding a text or name that was read is not longer than what was received and a name that was read is not too long to be sent. Decoding, which writes the result over the text while the rest of it is still being read, never writes outside the text, never spoils what is still to be read, and ends.", "quantifier": "all byte sequences; all 2229 names; all texts after a name", "why_tests_cant": "the bound holds because no name in the tables is shorter than what it stands for, and no test tries all names at all places of a text; one wide name would make the decoder panic on text a peer chooses", "anchors": ["nmdc/types.go: UnescapeBytes, Name.UnmarshalNMDC, String.UnmarshalNMDC", "html: UnescapeString, unescapeEntity, entity, entity2"]}
{"id": "C124", "title": "Tree hashes keep to their own memory", "statement": "Leaves.TreeHash changes no array that was there before the call. Any number of calls may be going on at the same time, on the same leaves, on overlapping parts of them or on others, and in any order of their steps each returns what it returns alone (the panic for no leaves included), and each ends after a bounded number of its own steps. TreeLeaves and TreeHash of a reader do not depend on what is in their buffer, nor on what the reader writes into the part of the buffer it does not return.", "quantifier": "all arrays of hashes, all slices of them, any number of calls, all orders of their steps; all readers and all uses of the buffer as scratch space", "why_tests_cant": "the hash is computed in place, so sharing one array would show only with some orders of steps or when leaves are used twice; and test readers do not write behind the bytes they return", "anchors": ["tiger/tth.go: Leaves.TreeHash, TreeLeaves, TreeHash"]}
{"id": "C125", "title": "Lists decoded into a variable that was used before share its array", "statement": "UnmarshalADC of Path and of Fields (INF updates) gives the variable the same list whether or not its array is shared. Decoding into a new variable changes no other list. Decoding a path into a used variable appends to it: earlier copies of the path keep their elements, and only lists that reach into the room behind its elements can change (so two copies of one path can overwrite each other's additions). Decoding fields into a used variable fills its array again: a copy of the old list then reads the new fields, as many as it is long, followed by what is left of its own, also if the text is refused, in which case the variable itself is empty; lists outside that array do not change. A program that decodes into any number of such variables and copies none of them reads what it would read if every variable had a list of its own.", "quantifier": "all texts, all arrays, slices, lengths, capacities and offsets, all growth policies of append, all programs of such calls", "why_tests_cant": "whether lists share an array depends on capacities and on how the variable was used before, and a test decodes into new variables", "anchors": ["adc/types.go: Path.UnmarshalADC", "adc/messages.go: Fields.UnmarshalADC"]}
{"id": "C126", "title": "Variables that hold feature maps", "statement": "Clone, SetFrom and Intersect of ModFeatures give new maps: they change none of their operands, and their result shares with no other variable. UnmarshalADC (also of the message Supported) and map assignments change the map of a variable in place: every variable that shares the map, by assignment from it or to it, reads the same afterwards, and no other variable changes; a variable that is nil gets a map of its own. Hence a program that makes its copies by Clone, SetFrom and Intersect and not by assignment behaves as if all variables had values of their own.", "quantifier": "all programs of any length over any number of variables, all texts including refused ones, all features", "why_tests_cant": "whether an update reaches another variable depends on the whole history of assignments, and tests decode into new variables", "anchors": ["adc/types.go: ModFeatures.Clone, UnmarshalADC, SetFrom, Intersect", "adc/messages.go: Supported.UnmarshalADC"]}
