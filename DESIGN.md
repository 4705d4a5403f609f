# Formal model of direct-connect/go-dc in Lean 4

Source: `/repo` (Go). Model and theorems: `lean/Verif`. Properties: `properties.jsonl`.
Status per property: `MANIFEST.json`. Log of wrong programs: `seeded/LOG.jsonl`. In the log an edit is *caught* if a property theorem no longer
proves, *caught by helper lemmas* if only a lemma below one fails, *same program* if the edited definition computes the same, *not a program* if
it is no program any more (it does not compile, or breaks what the language guarantees), and *survived* if nothing failed; those have the theorems that were tightened.

## 1. Layout

| directory | contents |
|---|---|
| `Verif/Go/*` | models of the Go standard library functions the code uses |
| `Verif/Lineproto/*` | `lineproto` reader and writer |
| `Verif/Nmdc/*` | `nmdc` values, messages, reader, writer |
| `Verif/Adc/*` | `adc` values, struct codec, messages, packets, reader, writer |
| `Verif/Tiger/*`, `Verif/Keyprint/*`, `Verif/Addr/*` | hashes and tree hash, key prints, addresses |
| `Verif/Spec/*` | small specifications, written without the model |
| `Verif/Props/*` | the property theorems, each with a concrete example |
| `Verif/Conformance/Nmdc`, `Adc` | the cases of the repository's own tests, evaluated in the model |
| `Verif/Conformance/*`, the others | cases of the theorems worked out on the model alone: a wrong program breaks them without a proof being involved |

Helper lemmas (`*Lemmas.lean`, `*Ops.lean`, `*Small.lean`, `*Safe.lean`) live beside the model.
The theorems to read are in `Verif/Props`. To judge them, read `Verif/Spec` first:

* `Spec/Lines`: splitting a byte string into lines.
* `Spec/Decimal`, `Spec/Utf8`, `Spec/Base32`: numbers, valid UTF-8, RFC 4648.
* `Spec/NmdcLine`: what an NMDC line is, without the parser.
* `Spec/NmdcWire`, `Spec/NmdcReads`: how each NMDC message is written; which payload is which message.
* `Spec/AdcWire`: the same for ADC, with the table of fields of each message.
* `Spec/Sega`, `Spec/Thex`: file type groups; the Merkle tree.

## 2. Modelling decisions

* A byte is `UInt8`; `[]byte` and `string` are `List UInt8`. A slice is a value,
  except in the models with memory (`Lineproto/Memory`, `Lineproto/WriterMemory`, `Nmdc/Memory`, `Adc/Memory`), where it is a window on an array; C79 to C81 and C102
  show that the two agree.
* A Go call ends in `ok v`, `err e` or `panic`. Index and slice operations that are
  out of range give `panic`; they are not totalised.
* `nil` and empty slices are identified unless the code distinguishes them.
* An unmarshal function takes the previous value of the receiver, so stale fields are visible.
  The receiver after an error is modelled in `Nmdc/Left.lean` (C98) and `Adc/Left.lean` (C104).
* Readers under the code are scripts of `Read` results; writers are scripts of accepted
  byte counts and errors. Every theorem quantifies over the script.
* Loops that Go does not bound run with fuel. Theorems about what is returned show that enough fuel exists,
  or hold for every amount.
* Map iteration order is a permutation of the entries, universally quantified.
* Numbers: Go `int` is 64-bit. Arithmetic that can wrap is modelled modulo 2^64.
* Hooks (`OnLine` and friends) are pure functions of what they are given, except in C100, where line hooks may keep state of their own and
  change the reader they are called from, and in C105, where they also get the slice and may write to memory.

Parameters (every theorem quantifies over them):

| parameter | stands for | assumed |
|---|---|---|
| `TextDecoder`, `TextEncoder` | `golang.org/x/text` | round trips: `dec (enc s) = s`; nothing else (C118 has the encodings NMDC hubs use, with proofs that they do this) |
| `HtmlEntities` | the table of package `html` | contains `amp`, `lt`, `gt` where a theorem says so; C123 has the tables themselves (`Go/HtmlTable`) |
| `Inflater`, `Deflater` | `compress/zlib`; `Inflater.want` says which bytes it reads by `io.ReadFull` and which by `ReadByte` | the law `Law` that ties them; `stored_law` shows it can be met, and C120 has the real format with a proof that it does (`Go/Inflate`, `Go/Deflate`) |
| Tiger, SHA-256 | hash functions | fixed output size; C116 has the functions themselves (`Tiger/Function`, `Go/Sha256`) |
| `ParseFloat` | `strconv.ParseFloat` | nothing, in C94 and C110 that whole numbers fit into 64 bits; C117 has the function itself (`Go/Float`, as in Go 1.13 and later) |
| lower case outside ASCII | package `unicode` | nothing (`Verif/Go/Unicode` has the two letters that matter) |
| URL parser and printer (C57, C64) | `net/url` | nothing; C64 needs that parsing undoes printing. C103 has the real ones (`Go/Url`, as in Go 1.19 and later; the newest versions also check the text in brackets) |
| PEM decoder | `encoding/pem` | nothing; `Go/Pem.decode` for C114 |

## 3. What is modelled

| Go file | Lean module | not modelled |
|---|---|---|
| `lineproto/reader.go` | `Lineproto/Reader`; with memory: `Lineproto/Memory`; with hooks that write to memory: `Lineproto/HookedMemory` | error texts; the memory of the decompressor is its own |
| `lineproto/writer.go` | `Lineproto/Writer`; the calls on the environment: `Lineproto/WriterTrace`; with memory: `Lineproto/WriterMemory` | error texts; in the model with memory the compressor and the transport take what they are given when they are called |
| `nmdc/utils.go`, `types.go` | `Nmdc/Utils`, `Nmdc/Types` | |
| `nmdc/extensions.go` | `Nmdc/Extensions` | the list of constants |
| `nmdc/message.go` | `Nmdc/Message`; `Registry/Registry`; with messages of the caller's types: `Nmdc/Own` | `Nmdc/Message` has the fixed table that `init` makes, C89 ties the two; methods of the caller's that call back into the reader or writer |
| `nmdc/msg_chat.go` | `Nmdc/Chat`; `String`: `Nmdc/Shown` | |
| `nmdc/msg_ctm.go` | `Nmdc/Ctm` | |
| `nmdc/msg_errors,files,hub,lock,other,pass,ping,user_list.go` | `Nmdc/Simple` | |
| `nmdc/msg_search.go` | `Nmdc/Search` | |
| `nmdc/msg_user.go` | `Nmdc/MyInfo`; flags: `Nmdc/Shown` | |
| `nmdc/reader.go` | `Nmdc/Reader`; with messages of the caller's types: `Nmdc/Own`; with memory: `Nmdc/Memory`; with concurrent changes of the decoder: `Nmdc/Shared` | in the model with memory the text of the error for an unknown encoding is a value |
| `nmdc/writer.go` | `Nmdc/Writer`, `Nmdc/Wire`; with messages of the caller's types: `Nmdc/Own`; with concurrent changes of the encoder: `Nmdc/Shared` | |
| `adc/marshal.go` | `Adc/Marshal`, `Adc/Escape`, `Adc/Values`; what is behind the pointer in every case: `Adc/Left`; encoding as it happens in the buffer: `Adc/Buffer`; decoding into types of the caller: `Adc/Own` | reflection: a struct of the library is the table of its tagged fields, one of the caller the list of its fields with their types; struct values whose types are defined recursively through pointers |
| `adc/types.go`, `adc/types/types.go` | `Adc/Ids`, `Adc/Features`, `Adc/Values`, `Adc/Pid` | the random source |
| `adc/messages,chat,connect,files,hub,search,user.go` | `Adc/Messages`, `Adc/Left` | getters |
| `adc/search.go` (`ExtGroup`) | `Adc/ExtGroup` | |
| `adc/packets.go` | `Adc/Packets`; `Adc/PacketVal`; with messages of any type: `Adc/Buffer` | |
| `adc/reader.go`, `adc/writer.go` | `Adc/Conn`; with memory: `Adc/Memory`; the writer with its buffer: `Adc/Buffer`; with types of the caller's own: `Adc/OwnConn` | |
| `adc/extensions.go` | | constants only |
| `conn.go`, `adc/conn.go`, `nmdc/conn.go` | `Addr/Addr`, `Addr/Real` | |
| `keyprint/*.go` | `Keyprint/Keyprint`, `Keyprint/PemFile` | the TLS connection: its certificates are a list |
| `tiger/tiger.go`, `tiger/tth.go` | `Tiger/Hash`, `Tiger/HashVar`, `Tiger/Tree`; the function: `Tiger/Function`, `Tiger/Digest` | |
| `types.go`, `types/types.go` | | one struct, no code |

## 4. Trusted base

* Lean's kernel; the axioms `propext`, `Classical.choice`, `Quot.sound` at most. No other axiom,
  no `sorry`, no `native_decide`.
* The correspondence between `/repo` and the model. It is checked by reading (every definition cites
  its lines) and by the conformance examples taken from the repository's tests.
* The models of standard library functions in `Verif/Go`.
* The parameters of section 2 are not axioms: theorems hold for every value of them.

## 5. Plan per property

| id | model | proof |
|---|---|---|
| C01-C04 | `Reader.ReadLine` over a script of reads | spec: split a byte string at the delimiter; induction over the script with the invariant "accumulated line ++ buffer ++ rest of script = remaining stream" |
| C05 | inflater as a byte-consuming state machine | the same invariant with two layers |
| C06 | `Binary`/`Read`/`Close` | induction over caller reads |
| C07 | closed state | case analysis over every operation |
| C08-C10, C13 | `Writer`, bufio.Writer, sink script, deflater | invariant over operation lists: sent ++ buffered = accepted |
| C11 | composition of the two | from C01 and C08 |
| C12 | `EnableZlibLevel` with invalid level | false: witness of the panic, and a partial theorem for valid levels |
| C14, C15 | replacers, html unescape with the entity table | scan lemma: an emitted entity is consumed exactly |
| C16 | `MarshalTo` | per message; raw fields give counter-examples |
| C17-C29 | one model per message | round trips; hypotheses are the separators each format cannot carry |
| C30 | all decoders | no `panic` in any branch; TTH search is a counter-example; `NmdcPanics` gives the payloads that panic exactly |
| C31 | Name/String | decision logic plus UTF-8 validity |
| C32, C33, C59, C60, C62 | `readMsgTo` | decision logic; streams by induction |
| C34 | writer and reader composed | from C11 and message round trips |
| C35 | `atoiTrim`, `parseUin64Trim` | value function on digit lists |
| C36 | `CustomKey` | xor algebra by finite check on bytes |
| C37 | `Extensions` | sets as duplicate-free lists up to permutation |
| C38 | unmarshal with a stale receiver | true for most messages, counter-examples for the rest |
| C39 | escape/unescape | induction |
| C40, C41, C67 | base32 | digit arithmetic; exact set of accepted texts; panic witness for long input |
| C42, C49, C50 | schema-driven codec | generic round trip, then one instance per message |
| C43-C46, C51, C66 | packets | round trips and decision logic; `AdcPanics` gives the lines that panic exactly (C45) |
| C47 | composition | from C11 and C43 |
| C48 | feature maps | maps as key-unique lists up to permutation |
| C52-C55 | tree hash | refinement of the in-place level algorithm to a recursive Merkle tree; `TreeHashAny`: the leaves any reader gives, for every way it splits its data (C53) |
| C56, C65 | key prints | base32 injectivity |
| C57, C64 | `ParseAddr`, `NormalizeAddr` | URL parser abstract |
| C58 | `ExtGroup.Matches` | decision logic |
| C61 | `ReadLine` inside an unfinished compressed section | invariant "the section is unfinished", kept by every read |
| C63 | `WriteMsg` hooks | decision logic; induction over the batch |
| C68-C70 | ADC wire form | an independent table of fields and a relation for texts; equality and equivalence with the codec; for the salt, what base32 text of any length carries as a number (`Spec/Salt.lean`), by induction on its groups |
| C71 | NMDC wire form | an independent function from messages to text |
| C72 | NMDC wire form, read direction | an independent relation `Reads`; the decoder succeeds exactly on it |
| C73 | the loops of the reader, with fuel | more fuel never changes an outcome; well-founded measure (input left, output pending, section open) |
| C74 | the same | invariant: the compressed reader is current only when it exists; false for transports that return `(0, nil)` inside a compressed section; exactly which calls panic: the run is compared with the runs over transports that fail with a new error at one of their `(0, nil)` (`LineReaderPanic.lean`) |
| C75 | `EnableZlibLevel` with a compressor that remembers its level | invariant over histories: the level of the cached compressor is the one the writer remembers |
| C76 | the loops of the NMDC and ADC readers, with fuel | each further round follows a line, and a line uses up input (C73) |
| C77 | the same | the line reader does not panic (C74); then the exact sets of C30 and C45 |
| C78 | tree hash | the pieces of any reader as a relation; trees with different leaves collide somewhere |
| C79 | line reader with memory | slices as windows on arrays; refinement to the model of values, with the invariant that no array the caller knows is a private buffer |
| C80 | NMDC reader with memory | the loop is a run of the line reader with memory; refinement to the model of values; the data of a returned message is an array of its own |
| C81 | ADC reader with memory | the same; the raw data of a packet is a suffix of its line |
| C82 | `normalizeInfo` | case analysis at the last space |
| C83 | `Status` | the three digits as a numeral, then arithmetic |
| C84 | `html.UnescapeString` | a grammar of pieces; the digit loop computes the value of the numeral |
| C85 | `Marshal` over arbitrary field lists | induction on the fields and on the types |
| C86 | machines whose steps are the accesses to the shared decoder or encoder (`Nmdc/Shared.lean`) | a simulation: every execution is one of calls made one after the other |
| C87 | `DecodePacketRaw`, then `MarshalPacketADC` | the shape of every accepted line (C44) and the round trip (C43) |
| C88 | `Lineproto/WriterTrace.lean`: the list of calls on the transport and on `Timeout` made by each call | the lists account for the transport's state (`calls_account`); shape of the list of each call; induction over the history |
| C89 | `Registry/Registry.lean`: the maps `messages` as made by calls of `RegisterMessage` | induction over the calls; the tables of the packages are evaluated (they are finite); `sort.Strings` is the merge sort of Lean's library with its theorems |
| C90 | `Adc/PacketVal.lean`: packets whose message may be nil, and their methods as state changes | case analysis per method against the decoder of `Adc/Packets`, induction over the loop of the selectors and over histories; what a failed `MarshalPacketADC` leaves in the buffer is not modelled |
| C91 | `Spec/NmdcBack.lean`: for each message type, the condition under which a value comes back | one equivalence per type: sufficiency from the round trips, necessity from the readings of `Spec/NmdcReads` (C44) by showing that a cut in the wrong place cannot give the same value |
| C92 | `Tiger/HashVar.lean`: the decoders as functions of the old value of the variable; `Spec/HashVar.lean`: which bytes the first characters give | induction over the groups of eight characters, keeping what has been written; induction over series of calls. Finding: a refused `UnmarshalBase32` or `UnmarshalADC` of a hash changes the variable (`buffer_mixes`), a refused `FromBase32` does not |
| C93 | `Lineproto/Writer.lean` (no new model); `Spec/Kept.lean`: the number of bytes kept back, from the lengths alone | the state of the buffer is followed through each successful call, then induction over the calls. Added because a changed default size of the buffer was not noticed by any theorem. With compression on, what the compressor keeps back is not described |
| C94 | `Adc/Messages.lean`, `Adc/Marshal.lean` (no new model); `Spec/AdcBack.lean`: the condition for each type, in terms of its fields | sufficiency from the round trips of C42 and C48; necessity from the exact readings of C69: whatever is read satisfies the condition (`Adc/BackLemmas.lean`), for SUP from the pieces before the first space of each part |
| C95 | the decoder of whole packets over the model of C43 and C94 | `Props/AdcPacketsBack`: equivalence; from C43 (lines), C94 (payloads) and, for feature packets, the selectors read back and an argument by type that a payload beginning with a space is never read as the same message without it |
| C96 | the decoder of C43; `Spec/AdcPacket.lean`: the forms of lines as an inductive relation | `Props/AdcAccepts`: equivalence of the relation and the decoder; the loop over the selectors by induction on the relation |
| C97 | the decoders of C31; `Spec/NmdcReuse.lean`: the kept fields as a function of the old message, the line and the fresh result | `Props/NmdcReuse`: equation per type; loops over flags, hub fields and tag fields by induction with the set of fields seen so far |
| C98 | `Nmdc/Left.lean`: every `UnmarshalNMDC` as a state-passing program that keeps the receiver when it fails; agrees with the decoders of C31 (`call_value`) | `Props/NmdcLeft`: per type, a failure for the encoding leaves all that C97 keeps (Hoare-style rules), hence `retry` by C97; `Props/NmdcRetry`: the reader with `left := Msg.left` |
| C99 | the decoders of C98, two of them side by side (`Follows`) | `Props/NmdcReported`: per type, the call with one decoder follows the call with the other, loops by induction; the reader by C98, streams by induction over the lines |
| C100 | `Lineproto/Hooked`: ReadLine with hooks that are functions of their own state and of the reader, which they may change | `Props/LineHooks`: equivalence of the hooked call with an inductively defined program without hooks, by induction over the fuel in one direction and over the program in the other; streams by induction over the lines |
| C101 | `unmarshalMsg` over the reader model | `Props/NmdcUnmarshal`: inductive specification of a buffer; the line reader by the sessions of C05, the line by C32, keep-alives by induction |
| C102 | `Lineproto/WriterMemory`: the buffer, the lines and the message buffer as arrays in memory | `Props/LineWriterMemory`: simulation of the model of values, call by call; ownership invariant; a concrete program for the kept message |
| C103 | `Go/Url`: `url.Parse` and `URL.String` in full; `Addr/Real`: the addresses with them | `Go/UrlLemmas`: escaping undone, hosts a parse can give, the printed URL parsed again; `Props/RealAddresses`: the statements about texts, two counterexamples |
| C104 | `Adc/Left`: the decoders once more, giving the value behind the pointer in every case | `Spec/AdcLeft`: what is left; `Adc/LeftLemmas`, `Props/AdcLeft`: equal to the decoders of C69 on success, what is left on failure, a counterexample to trying again |
| C105 | `Lineproto/HookedMemory`: `ReadLine` with hooks that get the slice, the reader and the memory | `Props/LineHooksMemory`: equivalence with the program without hooks by induction over the fuel and over the program; the lines by the refinement of the model with memory |
| C106 | `Adc/Buffer`: encoding as changes of the buffer's contents, with messages and fields that are arbitrary such changes; the writer with its buffer | `Props/AdcAnyMessage`: case analysis and induction over the fields and the calls; a simulation by the writer of raw messages |
| C107 | `Nmdc/Own`: a message is its name and an arbitrary change of the buffer; `MarshalTo` and the writer with its buffer | `Props/NmdcOwnWriter`: case analysis; a simulation by the writer of raw messages, by induction over the calls |
| C108 | `Nmdc/Own`: the reader with messages of an arbitrary type, `Spec/NmdcOwn`: what becomes of a raw message | `Props/NmdcOwnReader`, `NmdcOwnCallbacks`: a simulation by the reader of the package's messages, by induction over the rounds and the reads; case analysis over a line |
| C109 | `Nmdc/Own`, both sides | `Props/NmdcOwnConn`: the writer sends what a writer of raw messages sends (C107), C34's theorem about connections applies to these, and the reader turns what arrives into the caller's values (C108) |
| C110 | `Adc/Own`: `Unmarshal` for every Go type; specification `Spec/AdcOwn` | `Props/AdcOwn`: `value_iff`, `fields_iff`, `fields_failed` by induction over types and fields; `received`, `packet` with C106; `registered_types` with C89's registry. `Props/AdcOwnLibrary`: the model of the library is an instance |
| C111 | `Adc/OwnConn` (reader), `Adc/Buffer` (writer), `Adc/Own` (decoding) | `Props/AdcOwnConn`: `connection` from C106's `same_wire` and C47's `connection`; every session of raw reads is a session of any other calls on the same readers (`session_of`); `values_arrive`; `library_calls` |
| C112 | `Nmdc/Message` and the files of the types; `Spec/NmdcRelay` (`hop`, `hops`, `Passes`, `Short`) | `Props/NmdcRelay`: what was read (`message_reads`) without escapes is compared with what comes back (`message_back`), type by type (`NmdcRelayLemmas`): `any_payload`, `passed_on`, `any_hops` by induction on the programs, `forged` |
| C113 | `Nmdc/Shown`, `Adc/Shown`; `Spec/Shown` (`Has`: the flags in a set) | `Props/Shown`: bits of the conjunction; the two tables of escapes compared byte by byte; the exact reading of chat lines (C72) |
| C114 | `Keyprint/PemFile` on `Go/Pem`, `Go/Base64` (the decoder of the standard library, from its source); `Spec/Base64`, `Spec/Pem` (`File`: which blocks a file has) | `Props/PemFiles`: base64 by induction on its groups; the decoder on text, on a block, on a broken block; then induction on the length of the file |
| C115 | `Adc/Pid`: the source as a function on the 24 bytes, `Sum` into the array | `Props/PrivateIds`: the contract of a reader as a hypothesis; case distinction; text by C92 |
| C116 | `Tiger/Function`, `Tiger/Digest` (the Tiger function and the hash value of `github.com/cxmcc/tiger`), `Go/Sha256` | `Props/TigerPieces`: what was written is whole blocks and the buffer, an invariant of `Write`; `Props/KeyPrintSha`; the repository's tests of tree hashes and key prints run on the functions themselves in `Conformance/Hashes` |
| C117 | `Go/Float` (`strconv.ParseFloat`), `Adc/Floats` | `Spec/Float` states notation and nearest number apart from the model; `Go/FloatRound`, `Go/FloatText`, `Go/FloatUnder`; `Props/AdcFloats`; with it the parameter of C94 and C110 is a function that exists |
| C118 | `Go/Charmap` (`golang.org/x/text/encoding/charmap`: encoder, decoder, two tables) | `Props/CodePages`: a character has one byte and a byte one character; ASCII in a decoded text comes from the same byte, so escapes and old escapes are where they were; the round trips are those of C11 with the hypotheses proved |
| C119 | `Nmdc/Message`, `Nmdc/Left` (values that failing decoders leave), `Nmdc/Reader` | `Props/NmdcValid` from the exact readings of C72, `Props/NmdcValidLeft`: a property that every step of a method keeps, `Props/NmdcValidReader`: an invariant of the loop of the reader |
| C120 | `Go/Inflate` (decompressor bit by bit, Huffman codes, Adler-32), `Go/Deflate` (the format: blocks, tokens, headers), `Lineproto/Zlib`, `Lineproto/ZlibWriter` (instances of `Inflater`, `Deflater`; the compressor's choices are a parameter) | `Props/ZlibFormat`: canonical codes have no word that begins another one; run of the decompressor over the bits of a block, of all blocks; invariant of the state up to the checksum. `Props/ZlibTables`: codes, tables and checksum are those of the RFCs. `Conformance/Zlib` runs the repository's tests with their bytes; `Props/ZlibConn`: the connections of C34 and C47 with zlib |
| C121 | `Go/Inflate`, `Go/Deflate`, `Lineproto/Zlib` | `Props/ZlibRefuse`: `Broken` lists the faults; the decompressor is run over the bits before the fault as in C120 and stops there; a decompressor that has stopped stays so; `Props/ZlibWant`: how many bytes the call in progress still asks for, at each place; `Props/ZlibCut`: such a section, and one with a wrong checksum, does not end, so the reader of lines stays inside it (C61) |
| C122 | `Go/Inflate`, `Lineproto/Zlib` | `Go/DeflateSpec`: the format as an inductive relation; `Lineproto/ZlibSays`: the decompressor reads it; `Lineproto/ZlibParse`: for everything the decompressor reads, if it comes to the end from there, the bits begin with that thing; `Props/ZlibExact`: both together |
| C123 | `Go/Html`, `Go/HtmlTable`, `Go/HtmlPlace`, `Nmdc/Types` | `Nmdc/NarrowLemmas`: a reference reads at least as many bytes as it writes, and the invariant of the buffer (the result is not longer than what was read; what was not read is untouched); `Nmdc/EntityNames`: the tables, by evaluation of all entries; `Props/Entities` |
| C124 | `Tiger/TreeMemory` | arrays by number, calls as small-step machines; `Tiger/TreeMemoryLemmas`: invariant (each call owns the array it writes to, no two own the same one, and from its array it will return the root of its leaves), a rank that falls with every step; the buffers by what their first bytes are; `Props/TreeMemory` |
| C125 | `Adc/ListMemory` | arrays by number, slices with offset, length and capacity, `append` with any growth; `Adc/ListMemoryLemmas`: what appending does to the arrays, by induction over the elements; refinement of the decoders of `Adc/Left`; `Props/ListMemory`, `Props/ListPrograms` (programs over many variables, by the invariant that no two variables have room in the same array) |
| C126 | `Adc/FeatureMemory` | maps by number, variables as references, the steps of a program; `Props/FeatureMemory`: the same steps on values as the specification; invariant (every reference is to a map that exists), sharing after each step, refinement for programs without assignments |

## 6. Findings

Places where the code does not do what its interface suggests. Each is a theorem with a concrete
witness, in the module of `Verif/Props` given.

Panics
* `NmdcLines.encoder_panics`, `empty_chat_panics`, `NmdcSimple.supports_empty_panics`: writing an empty chat message or an empty `Supports`.
* `Identifiers.unmarshalBase32_panics`, `NmdcMessages.search_decoder_panics`, `NmdcReaderHooks.remote_panic_search`: a peer can make the reader panic with a TTH search of 40 characters.
* `AdcSafety.missing_part_panics`, `lines_panic`, `info_empty_panics`, `short_selector_panics`: ADC lines that make the decoder panic. `AdcPanics.line_panics_iff` gives all of them, `NmdcPanics.decoders_panic_iff` those of NMDC.
* `NmdcRelay.panics_iff`: a hub that encodes what it decoded for its other clients panics after the chat line `<>` and after an empty list of extensions, which every client can send.
* `LineReaderTotal.empty_read_panics`: an empty read inside a compressed section.
* `LineWriter.enable_bad_level_panics`, `double_close_panics`: a writer after an unknown compression level, or closed twice.
* `NmdcReaderHooks.no_target_panics`: `ReadMsgToAny` without targets.
* `TreeHash.empty_leaves_panic`: `TreeHash` of no leaves.
* `NmdcExtensions`: `Set` on a nil map.
* `AdcOwn.pointer_type`: `RegisterMessage` accepts a type whose pointers only are messages (`RawMessage` is one), and then every valid message of this name makes `UnmarshalMessage` panic.
* `AdcOwn.unexported_panics`: a tagged field that is not exported makes `Unmarshal` panic when a peer sends a value for it.

Lines and framing
* `NmdcLines.injection`, `AdcLines.raw_injects`, `AdcAnyMessage.newline_forges`: fields written without escaping can hold the delimiter.
* `LineReader.maxLine_not_exact`: the limit is exceeded by up to one read buffer; `exhausted_desync`: after the error the rest of the long line is read as lines; `error_splits_line`: an error of the transport splits a line.
* `LineWriter.write_error_not_sticky`, `close_sends_after_error`.
* `LineTimeouts.not_all_guarded`, `bare_calls`: `Write`, `DisableZlib` and `Close` write to the transport without the deadline that `Timeout` is there to set, so they can block on a peer that does not read.
* `AdcRelay.short_relay`: a packet with a short id is passed on as two lines.
* `NmdcShared.lost_update`: a `SetDecoder` during a `ReadMsg` that meets an unknown encoding is lost.
* `AdcLines.zero_text_refused`: texts with a zero byte make lines every reader refuses.

Values that do not survive
* `NmdcText.text_legacy_lost`, `name_limit_asymmetric`, `decoded_name_may_be_forbidden`.
* `NmdcChat.chat_text_misread`, `private_misread`, `chat_decoder_drops_byte`, `userCommand_half`, `userCommand_trimmed`.
* `NmdcCtm.ctm_flag_misread`; `NmdcSearch.sr_path_escaped`, `sr_file_misread`.
* `NmdcSimple.failOver_empty`, `hubInfo_soft_split`, `names_one_empty`, `userIP_empty`, `adcGet_length_wraps`, `key_ambiguous`.
* `NmdcMyInfo.flag_dollar_refused`, `flag_bar_written`, `extra_key_changed`, `bad_size_is_zero`, `stale_without_tag`.
* `NmdcReaderHooks.unknown_not_verbatim`.
* `AdcText.path_not_roundtrip`; `AdcMessages.status_not_roundtrip`, `salt_padded`, `fields_not_roundtrip`, `flag_zero_is_true`; `AdcPackets.feature_not_roundtrip`, `short_accepted`, `short_feature_accepted`.
* `AdcOwn.int16_cut`: a number of up to 32 bits in a field of type `int16` is cut without an error, and so is one that is out of range for `int32` but a float; `AdcOwn.unsigned_refused`: unsigned fields are written but cannot be read.
* `Identifiers.garbage_after_name`, `decode_not_injective`; `AdcWire.fraction_keeps`, `path_appends`.

State kept where it should not be
* `NmdcMessages.reuse_stale`, `AdcMessages.get_stale`, `AdcText.feats_stale`: decoding into a used value.
* `NmdcReaderHooks.dropped_message_poisons`, `drop_leaks`, `error_swallowed`, `undecodable_skipped`: callbacks of the NMDC reader.
* `NmdcReaderHooks.fallback_missed`, `fallback_nil_replaces`; `raw_target_refuses`.
* `NmdcConn.drop_ends_batch`: a hook that drops one message ends the batch.

Others
* `AdcFeatures.isSet_of_removed`, `add_wins`; `AdcGroups.kelvin_matches`.
* `TreeHash.split_matters`, `empty_read_truncates`: the tree hash depends on how the reader splits the data.
* `Addresses.adc_host_refused`, `capital_scheme_refused`; `RealAddresses.adc_name_refused`, `zone_lost`, `trailing_slash_matters`.
* `NmdcMemory.error_lost`: the command in `ErrUnexpectedCommand` is a part of the line buffer, and changes when the next line is read. The text of the error for an unknown encoding can change in the same way (`nmdc/types.go:49-54, 114-116`; not in the model).
* `NmdcOwnWriter.line_form`: a message with neither name nor payload makes `MarshalTo` panic, or overwrite the last byte of the caller's buffer; `NmdcOwnWriter.delimiter_forges`, `AdcAnyMessage.newline_forges`: a delimiter in a payload of the caller's is sent as it is; `NmdcOwnReader.nameless`: a message of the caller's without a name is never filled in.
* `LineWriterMemory.kept_message_changes`: the line a callback of `OnLine` of a writer gets for a message is the message buffer; the next message is encoded over it (`nmdc/writer.go:74-79`, `adc/writer.go:44-49`).
* `NmdcRelay.forged`: to a hub `<> <op> hi` is a text without a name; encoded again it is the message `hi` by `op`. `NmdcRelay.passed_on` lists all messages without escapes that change when they are passed on.
* `Shown` (examples): `FlagTLS` is set if encryption is on in one direction only (`nmdc/msg_user.go:78-94`); a line `<> <op> hi` is shown as a message by `op` (`nmdc/msg_chat.go:24-29`).
* `AdcSalt.salt_reads`: a last group of one, three or six characters of a salt is accepted and dropped, and a salt always has five bytes for eight received, so that it can end with zeros nobody sent (`adc/hub.go:84-89`).
* `PemFiles.joined_lost`: two certificates without the end of a line between them are both lost, and if others follow there is no error (`keyprint/keyprint.go:40-61`).
* `PrivateIds.short_read_unnoticed`: `NewPID` calls `Read` once and ignores how many bytes it got (`adc/types/types.go:149-152`).
* C117: an integer field accepts numbers that do not fit into 64 bits, because what `strconv.ParseInt` refuses is read again as a floating point number and converted without a check (`adc/marshal.go:61-69`). On amd64 `9223372036854775808`, `1e300` and `Infinity` become -2^63, and on arm64 2^63-1 (`overflow_accepted`, `machines_differ`). `9007199254740993.0` becomes 9007199254740992 and `0.99999999999999999` becomes 1 (`digits_lost`); `NaN` and `2.5` are accepted and leave the old value (`nan_accepted`).
* C118: `String.UnmarshalNMDC` and `Name.UnmarshalNMDC` replace character references before they decode the code page (`nmdc/types.go:100-119, 136-153`), so with Windows-1252 `&#233;` is received as `Ã©` (`CodePages.reference_garbled`; without a code page it is `é`). The limit of 256 bytes on names is on UTF-8 when a name is sent and on the bytes of the page when it is received: with Windows-1251 a name of 129 Cyrillic letters is received and cannot be sent (`CodePages.name_not_sent`).
* C119: the path of a search result is checked to be a text but handed out as it arrived, so with a code page it is not UTF-8 (`nmdc/msg_search.go`, `NmdcValid.path_not_decoded`); the tag of `MyINFO` (client, version, extra fields) is neither decoded nor checked, and `OnUnknownEncoding` is not asked (`NmdcValid.tag_not_checked`).
* The checksum of a compressed section is compared at its end, so the lines of a section damaged on the way are delivered, without an error, before the damage is noticed (`ZlibFormat.damaged_delivered`, C120). A program that acts on lines as they come has acted on wrong ones.
* C125: decoding an INF update into a `Fields` variable that was used before changes the copies of the old value, also if the update is refused (`copy_changes`, `refused_changes`); two `Path` variables that began as copies of one can overwrite each other's elements (`paths_overwrite`).
* C89: `RegisterMessage(&RawMessage{Typ: name})` does not keep the name: lines of that name are then read as raw messages without one, and written as chat lines (`raw_registered`).
* C110: `adc.RegisterMessage(&RawMessage{Type: name})` is accepted, and from then on every message of that name makes `UnmarshalMessage` panic, since only pointers to `RawMessage` are messages (`raw_type`).
* C126: a copy of `Supported` or of its features made by an assignment changes with the next update that is decoded into the original, unless the original was nil when it was copied (`copy_follows`).
