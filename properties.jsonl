{"id": "C01", "title": "rzCOBS frame round trip", "statement": "Every byte string written to the default (rzCOBS) encoder inside one frame is recovered by the host: decoding the frame body returns exactly the written bytes followed by fewer than seven padding bytes, all of them 0x00, and never an error.", "quantifier": "all byte strings of any length", "why_tests_cant": "the encoder is a state machine whose state depends on the whole prefix; tests only cover a handful of literal inputs and two run lengths", "anchors": ["defmt/src/encoding/rzcobs.rs: Encoder::{write,end_frame}", "decoder/src/stream/rzcobs.rs: rzcobs_decode"]}
{"id": "C02", "title": "frame separator is unambiguous", "statement": "The encoded body of a frame never contains the byte 0x00, and each finished frame ends with exactly one 0x00, so 0x00 in the stream always and only marks a frame end.", "quantifier": "all frame payloads", "why_tests_cant": "a single payload shape that emits a zero would break framing; payloads are unbounded", "anchors": ["defmt/src/encoding/rzcobs.rs: Encoder::{write,end_frame}"]}
{"id": "C03", "title": "encoding does not depend on how writes are split", "statement": "The bytes put on the wire for a frame depend only on the concatenation of the data written between start and end of the frame, not on how it was split into write calls.", "quantifier": "all payloads and all ways to split them into consecutive writes", "why_tests_cant": "number of splits is exponential in the payload length", "anchors": ["defmt/src/encoding/rzcobs.rs: Encoder::write", "defmt/src/export/mod.rs: write"]}
{"id": "C04", "title": "frames are encoded independently and the first one is preceded by a separator", "statement": "For any history of complete frames, the wire bytes are one leading 0x00 followed by the concatenation of the individually encoded frames; nothing of an earlier frame influences the encoding of a later one.", "quantifier": "all sequences of frames of any length", "why_tests_cant": "encoder state persists in a static across frames; histories are unbounded", "anchors": ["defmt/src/encoding/rzcobs.rs: Encoder::{new,start_frame,end_frame}"]}
{"id": "C05", "title": "encoding overhead bound", "statement": "The encoded body of an n byte payload is at most n + n/134 + 1 bytes long.", "quantifier": "all payloads", "why_tests_cant": "worst case over all inputs", "anchors": ["defmt/src/encoding/rzcobs.rs: Encoder::write"]}
{"id": "C06", "title": "rzCOBS stream decoding does not depend on how the bytes arrive", "statement": "Feeding the stream decoder the same byte sequence in any chunking, and calling decode until it asks for more data after every chunk, yields the same sequence of frames and errors.", "quantifier": "all byte sequences (including corrupt ones), all chunkings, all tables", "why_tests_cant": "chunk boundaries come from the transport; exponential number of them", "anchors": ["decoder/src/stream/rzcobs.rs: Rzcobs::{received,decode}", "print/src/main.rs: decode loop"]}
{"id": "C07", "title": "resynchronisation after garbage", "statement": "Whatever bytes precede it, after the next 0x00 every frame that was encoded intact is decoded, in order; lost or corrupt data before the separator affects at most the frames it overlaps.", "quantifier": "all garbage prefixes, all sequences of valid frames", "why_tests_cant": "garbage is arbitrary", "anchors": ["decoder/src/stream/rzcobs.rs: Rzcobs::{received,decode}"]}
{"id": "C08", "title": "stream decoding always makes progress", "statement": "Every decode call that does not ask for more data removes at least one byte from the internal buffer, the internal consistency assertion never fires, and when the decoder asks for more data the buffer holds no separator (only an unfinished frame).", "quantifier": "all reachable decoder states and inputs", "why_tests_cant": "requires an invariant over all reachable states", "anchors": ["decoder/src/stream/rzcobs.rs: Rzcobs::{received,decode}"]}
{"id": "C09", "title": "raw stream decoding does not depend on how the bytes arrive", "statement": "With the raw encoding, feeding the same bytes in any chunking yields the same frames, and a decode error is reported only if it would be reported with all data available.", "quantifier": "all byte sequences, chunkings, tables", "why_tests_cant": "needs prefix-monotonicity of the whole recursive decoder for every format string", "anchors": ["decoder/src/stream/raw.rs: Raw::{received,decode}", "decoder/src/decoder.rs: Decoder::decode_format"]}
{"id": "C10", "title": "decode reports exactly the bytes it used", "statement": "When decoding a frame succeeds and reports that n bytes were consumed, n is at most the input length, the result is the same for every input sharing those n bytes, and every shorter prefix asks for more data instead of failing or producing a different frame.", "quantifier": "all inputs, all tables", "why_tests_cant": "universally quantified over tables, inputs and cut points", "anchors": ["decoder/src/lib.rs: Table::decode", "decoder/src/decoder.rs"]}
{"id": "C11", "title": "the host accepts every format string the target compiled", "statement": "If a format string is accepted in strict mode (target macros) then the forwards-compatible mode (host) parses it to the same fragments.", "quantifier": "all strings", "why_tests_cant": "infinite input space; two modes share code but branch on hints", "anchors": ["parser/src/lib.rs: parse, parse_param, ParserMode"]}
{"id": "C12", "title": "argument indices are dense and consistently typed", "statement": "If a format string parses, the set of argument indices used is exactly 0..n-1 and all uses of one index have the same type (all bitfields if one is).", "quantifier": "all strings and both parser modes", "why_tests_cant": "infinite input space", "anchors": ["parser/src/lib.rs: parse"]}
{"id": "C13", "title": "implicit argument numbering", "statement": "In an accepted format string the k-th parameter without an explicit index refers to argument k (counting from 0), regardless of explicit parameters in between, and parameters with an explicit index refer to that index.", "quantifier": "all strings", "why_tests_cant": "infinite input space", "anchors": ["parser/src/lib.rs: parse"]}
{"id": "C14", "title": "literal text escaping round trip", "statement": "For every text, doubling its braces and parsing the result yields the text itself as the only literal fragment and no parameters.", "quantifier": "all texts", "why_tests_cant": "infinite input space; used by assert!/dbg! to embed arbitrary source text", "anchors": ["parser/src/lib.rs: parse, push_literal", "macros/src/construct.rs: escaped_expr_string"]}
{"id": "C15", "title": "single braces are rejected", "statement": "A literal part of an accepted format string contains braces only in doubled form.", "quantifier": "all strings", "why_tests_cant": "infinite input space", "anchors": ["parser/src/lib.rs: push_literal"]}
{"id": "C16", "title": "parsing a format string never panics", "statement": "Parsing returns a value or an error for every input string, it never panics.", "quantifier": "all strings, both modes", "why_tests_cant": "infinite input space", "anchors": ["parser/src/lib.rs: parse_range, parse"]}
{"id": "C17", "title": "display hints do not affect decoding", "statement": "Two format strings whose parameters differ only in their display hints decode any byte string to the same arguments and the same number of consumed bytes; in particular a hint unknown to the host is harmless.", "quantifier": "all parameter lists, tables and byte strings", "why_tests_cant": "infinite input space", "anchors": ["decoder/src/decoder.rs: Decoder::decode_format"]}
{"id": "C18", "title": "every parameter can be written and read back", "statement": "Every combination of argument index, type and display hint, written in the documented syntax, parses to exactly that parameter in both modes.", "quantifier": "all indices, all types (any array length, any bit range), all hints with any padding", "why_tests_cant": "unbounded indices, lengths, paddings", "anchors": ["parser/src/lib.rs: parse_param, parse_array, parse_range", "parser/src/types.rs: Type::from_str", "parser/src/display_hint.rs: DisplayHint::parse"]}
{"id": "C19", "title": "integer and float round trip", "statement": "Every integer of every width and every float bit pattern logged is decoded to the same value.", "quantifier": "all values of all widths", "why_tests_cant": "2^128 values", "anchors": ["defmt/src/export/integers.rs", "defmt/src/export/mod.rs", "decoder/src/decoder.rs: Decoder::decode_format"]}
{"id": "C20", "title": "pointer sized integers round trip", "statement": "Every usize/isize logged is decoded to the same value.", "quantifier": "all target pointer widths and values", "why_tests_cant": "depends on target width, unbounded values", "anchors": ["defmt/src/export/integers.rs: usize, isize", "decoder/src/decoder.rs"]}
{"id": "C21", "title": "text and byte round trip", "statement": "Every bool, char, string, interned string, byte slice and byte array logged is decoded to the same value, whatever bytes follow.", "quantifier": "all values, all following bytes", "why_tests_cant": "infinite input space incl. all of Unicode", "anchors": ["defmt/src/export/mod.rs: str, slice, u8_array, bool, char, istr", "decoder/src/decoder.rs"]}
{"id": "C22", "title": "bitfield round trip", "statement": "For any set of bit ranges of one argument and any value of that argument, every displayed range shows exactly the bits start..end of the value.", "quantifier": "all sets of ranges within 128 bits and all values", "why_tests_cant": "2^128 values times all range sets", "anchors": ["macros/src/function_like/log/codegen.rs: encode_arg", "decoder/src/decoder.rs: merge_bitfields", "decoder/src/frame.rs: format_args_real"]}
{"id": "C23", "title": "log call to decoded arguments, for every format string and nesting", "statement": "For every format string the macros accept and all well typed arguments (nested Format values, slices, arrays, manual implementations, bitfields, any depth) the host decodes exactly those arguments in argument order and consumes exactly the bytes sent.", "quantifier": "all format strings, all tables, all values of any nesting depth", "why_tests_cant": "unbounded nesting and format strings", "anchors": ["macros/src/function_like/log/codegen.rs: Codegen::new", "defmt/src/export/mod.rs", "defmt/src/traits.rs: Format", "decoder/src/decoder.rs: decode_format"]}
{"id": "C24", "title": "enum discriminant width agreement", "statement": "For a derived enum with any number of variants, the width of the discriminant written by the target is the width read by the host.", "quantifier": "all variant counts", "why_tests_cant": "boundary at 2^8, 2^16, 2^32 variants; a test would need enums of that size", "anchors": ["macros/src/derives/format/codegen/enum_data.rs: DiscriminantEncoder", "decoder/src/decoder.rs: get_variant"]}
{"id": "C25", "title": "arguments are sent once each, in index order", "statement": "Reusing or reordering argument indices in the format string does not change what is sent: each argument is encoded exactly once, in increasing index order, and the host recovers each at its index.", "quantifier": "all parameter lists", "why_tests_cant": "infinite input space", "anchors": ["macros/src/function_like/log/codegen.rs: Codegen::new", "decoder/src/decoder.rs: prepare_params"]}
{"id": "C26", "title": "text formatted on the target round trip", "statement": "Debug2Format/Display2Format output of any length and content is recovered exactly; the terminator cannot occur inside the text.", "quantifier": "all texts, any split into fragments", "why_tests_cant": "all of Unicode, unbounded length", "anchors": ["defmt/src/export/mod.rs: debug, display", "defmt/src/impls/adapter.rs", "decoder/src/decoder.rs"]}
{"id": "C27", "title": "manual Format implementations may write any number of times", "statement": "The sequence of write! calls of a manual Format implementation is recovered in order and its end is detected, for any number of writes, nested arbitrarily.", "quantifier": "all write sequences", "why_tests_cant": "unbounded sequences and nesting", "anchors": ["defmt/src/traits.rs: Format", "decoder/src/decoder.rs: FormatSequence"]}
{"id": "C28", "title": "derived format strings describe the derived encoding", "statement": "For every struct or enum the derive macro accepts, the generated format string parses and its parameter types are the types the generated code encodes, in field order.", "quantifier": "all struct/enum shapes, field attributes", "why_tests_cant": "unbounded numbers of fields and variants and all attribute combinations", "anchors": ["macros/src/derives/format/codegen.rs", "macros/src/derives/format/codegen/fields.rs", "macros/src/derives/format/codegen/enum_data.rs"]}
{"id": "C29", "title": "log level and message of a frame come from the statement that was logged", "statement": "A decoded frame carries the level, index and format string of the table entry named by its first two bytes, and timestamp arguments are decoded before and independently of message arguments.", "quantifier": "all tables and bytes", "why_tests_cant": "all tables", "anchors": ["decoder/src/lib.rs: Table::decode"]}
{"id": "C30", "title": "log statements cannot be used as nested formats", "statement": "Inside arguments, an index that refers to a log statement (an entry with a level) or to no entry is reported as malformed.", "quantifier": "all tables, positions", "why_tests_cant": "all tables", "anchors": ["decoder/src/lib.rs: get_without_level", "decoder/src/decoder.rs"]}
{"id": "C31", "title": "decoding arbitrary bytes never crashes or hangs", "statement": "For every table whose format strings parse without crashing and every byte string, decoding terminates with a frame or an error, with nesting depth at most half the input length.", "quantifier": "all tables and byte strings", "why_tests_cant": "untrusted input, unbounded", "anchors": ["decoder/src/lib.rs: Table::decode", "decoder/src/decoder.rs"]}
{"id": "C32", "title": "end to end through framing", "statement": "A log statement encoded, framed, sent in any chunks after any noise plus a separator, decodes to the frame that was logged.", "quantifier": "all statements, all values, all chunkings", "why_tests_cant": "composition of all of the above", "anchors": ["defmt/src/encoding/rzcobs.rs", "decoder/src/stream/rzcobs.rs", "decoder/src/decoder.rs"]}
{"id": "C33", "title": "displaying a decoded frame never crashes", "statement": "Every frame returned by decode can be displayed without panicking.", "quantifier": "all tables and byte strings", "why_tests_cant": "untrusted input, all hints and nested hints", "anchors": ["decoder/src/frame.rs: format_args_real"]}
{"id": "C34", "title": "unsigned integers display exactly", "statement": "In decimal, binary, octal and hex, with or without base prefix and zero padding, the displayed digits denote exactly the value, the output is at least as wide as requested and padded only with zeros after the prefix.", "quantifier": "all values, hints and widths", "why_tests_cant": "infinite input space", "anchors": ["decoder/src/frame.rs: format_u128"]}
{"id": "C35", "title": "signed hex display uses the declared width", "statement": "A negative iN displayed in hex shows its N bit two's complement pattern, for every signed integer type.", "quantifier": "all signed types and values", "why_tests_cant": "infinite input space", "anchors": ["decoder/src/frame.rs: I128Hex, format_i128"]}
{"id": "C36", "title": "time hints preserve the value", "statement": "The output of us/ms/tus/tms/ts hints determines the original number: seconds, minutes and hours are in range and weighted sum equals the value.", "quantifier": "all 128 bit values", "why_tests_cant": "infinite input space", "anchors": ["decoder/src/frame.rs: format_u128, format_time"]}
{"id": "C37", "title": "bitflags display shows exactly the set flags", "statement": "With a bitflags hint the names shown are exactly the flags all of whose bits are set in the value (zero flag only for value zero), in definition order, and (empty) if there is none.", "quantifier": "all flag definitions and values", "why_tests_cant": "infinite input space", "anchors": ["decoder/src/frame.rs: format_u128"]}
{"id": "C38", "title": "byte string display is reversible", "statement": "The :a output of any byte string is printable ASCII and can be read back as a Rust byte string literal to exactly the same bytes.", "quantifier": "all byte strings", "why_tests_cant": "infinite input space", "anchors": ["decoder/src/frame.rs: format_bytes"]}
{"id": "C39", "title": "hint precedence", "statement": "A parameter with its own hint is displayed with it whatever hint the parent has (except where :? defers to the parent); a parameter without one inherits the parent's.", "quantifier": "all hints, types and nestings", "why_tests_cant": "infinite combinations", "anchors": ["decoder/src/frame.rs: format_args_real"]}
{"id": "C40", "title": "symbol name round trip", "statement": "The symbol name produced for any package, tag, text and crate name parses as JSON back to the same parts; distinct parts give distinct names; the name contains no '@' and no control characters.", "quantifier": "all strings", "why_tests_cant": "infinite input space", "anchors": ["macros/src/construct/symbol.rs: mangle, json_escape", "decoder/src/elf2table/symbol.rs: demangle"]}
{"id": "C41", "title": "the table does not depend on symbol order", "statement": "The table read from an ELF file is the same for every order of its symbols; flags of a bitflags type appear in definition order.", "quantifier": "all symbol lists and permutations", "why_tests_cant": "factorial number of orders", "anchors": ["decoder/src/elf2table/mod.rs: parse_impl"]}
{"id": "C42", "title": "incompatible or ambiguous binaries are rejected", "statement": "A table is produced only if there is at most one version (and it is supported), at most one encoding, at most one timestamp; a binary without defmt data yields no table and no error.", "quantifier": "all symbol lists", "why_tests_cant": "all symbol lists", "anchors": ["decoder/src/elf2table/mod.rs: parse_impl, check_version"]}
{"id": "C43", "title": "DEFMT_LOG default and global level", "statement": "Without a directive for the crate, exactly the statements at or above the last global level (error if none) are compiled in, for every module of the crate.", "quantifier": "all directive lists, module paths and levels", "why_tests_cant": "infinite input space", "anchors": ["macros/src/function_like/log/env_filter.rs: EnvFilter::new, path_check"]}
{"id": "C44", "title": "later DEFMT_LOG directives override earlier ones", "statement": "For the same module path only the last directive matters, and directives for other crates are irrelevant.", "quantifier": "all directive lists", "why_tests_cant": "infinite input space", "anchors": ["macros/src/function_like/log/env_filter.rs: EnvFilter::new", "macros/src/function_like/log/env_filter/parse.rs: defmt_log"]}
{"id": "C45", "title": "the most specific DEFMT_LOG directive decides", "statement": "The level in force in a module is that of the longest directive path enclosing the module; a statement is compiled in exactly if its level is at least that level.", "quantifier": "all directive lists, module paths and levels", "why_tests_cant": "infinite input space", "anchors": ["macros/src/function_like/log/env_filter.rs: path_check"]}
{"id": "C46", "title": "DEFMT_LOG paths match whole segments", "statement": "A directive applies to a module exactly if its path is the module's path or an ancestor of it, segment by segment (foo::bar does not apply to foo::barbaz).", "quantifier": "all paths", "why_tests_cant": "infinite input space", "anchors": ["macros/src/function_like/log/env_filter.rs: codegen_is_inside_of_check"]}
{"id": "C47", "title": "raising DEFMT_LOG never removes messages", "statement": "If a statement is emitted at some level, a statement of higher severity at the same place is emitted too.", "quantifier": "all directive lists, module paths, level pairs", "why_tests_cant": "infinite input space", "anchors": ["macros/src/function_like/log/env_filter.rs: path_check"]}
{"id": "C48", "title": "RTT blocking mode loses and reorders nothing", "statement": "With a connected host, under every interleaving of target writes (byte by byte copies, cursor updates) and host reads, the bytes the host has read are always a prefix of the bytes the target has written, and unread data is never overwritten.", "quantifier": "all schedules, buffer sizes, write sizes, host read sizes", "why_tests_cant": "concurrency: unbounded schedules", "anchors": ["firmware/defmt-rtt/src/channel.rs: write_all, blocking_write, write_impl, available_buffer_size"]}
{"id": "C49", "title": "RTT accesses stay inside the buffer", "statement": "In both modes, every copy stays within the buffer and both cursors stay below its size; a write never needs more than one wrap-around.", "quantifier": "all schedules, sizes >= 1, write sizes", "why_tests_cant": "unsafe pointer arithmetic, unbounded schedules", "anchors": ["firmware/defmt-rtt/src/channel.rs: write_impl"]}
{"id": "C50", "title": "RTT writes complete", "statement": "Without a connected host a write always completes in finitely many steps; with a connected host that keeps reading, every write completes, provided the buffer is at least two bytes.", "quantifier": "all states, write sizes", "why_tests_cant": "liveness over all schedules", "anchors": ["firmware/defmt-rtt/src/channel.rs: write_all"]}
{"id": "C51", "title": "RTT without host keeps the newest data", "statement": "Without a connected host, after any writes the buffer contains the most recent min(total, size) bytes ending at the write cursor.", "quantifier": "all histories", "why_tests_cant": "unbounded histories", "anchors": ["firmware/defmt-rtt/src/channel.rs: nonblocking_write"]}
{"id": "C52", "title": "RTT flush", "statement": "In blocking mode, if flush returns with the host connected, the host has read everything written before it; if the host keeps reading, flush returns; without a host it returns at once.", "quantifier": "all schedules", "why_tests_cant": "concurrency", "anchors": ["firmware/defmt-rtt/src/channel.rs: flush"]}
{"id": "C53", "title": "frames of different contexts never interleave", "statement": "With acquire/release as used by the log macros, the wire is always a concatenation of whole frames plus at most one unfinished frame; a reentrant acquire panics instead of interleaving.", "quantifier": "all interleavings of tasks and interrupts", "why_tests_cant": "unbounded schedules", "anchors": ["firmware/defmt-rtt/src/lib.rs: acquire, write, release", "firmware/defmt-semihosting/src/lib.rs", "firmware/defmt-itm/src/lib.rs", "defmt/src/export/mod.rs: acquire_and_header"]}
{"id": "C54", "title": "printer skips bad frames only if it can recover", "statement": "With rzCOBS the printer prints every decodable frame in order and skips malformed ones; with raw it stops at the first malformed frame having printed all frames before it.", "quantifier": "all byte sequences and chunkings", "why_tests_cant": "unbounded streams", "anchors": ["print/src/main.rs", "decoder/src/lib.rs: Encoding::can_recover"]}
{"id": "C55", "title": "JSON module path", "statement": "Splitting and joining a module path of a record recovers crate, modules and function for every path of plain identifiers.", "quantifier": "all paths", "why_tests_cant": "infinite input space", "anchors": ["decoder/src/log/json_logger.rs: create_module_path"]}
{"id": "C56", "title": "log output padding", "statement": "A formatted log field has at least the requested width in visible characters, contains the text unchanged, and is padded on the requested side(s) only.", "quantifier": "all texts, widths, alignments", "why_tests_cant": "infinite input space", "anchors": ["decoder/src/log/format/mod.rs: build_formatted_string"]}
{"id": "C57", "title": "printing a message never crashes on its content", "statement": "The coloured diff post-processing of a message never panics whatever the message text is.", "quantifier": "all message texts", "why_tests_cant": "infinite input space", "anchors": ["decoder/src/log/format/mod.rs: color_diff"]}
{"id": "C58", "title": "parsing a log format string never crashes", "statement": "A user supplied --log-format string is accepted or rejected with an error, it never panics.", "quantifier": "all strings", "why_tests_cant": "infinite input space", "anchors": ["decoder/src/log/format/parser.rs: take_until_unbalanced, parse"]}
{"id": "C59", "title": "a printed line shows everything in place", "statement": "The line is the timestamp, the level and the message. The message is the text of the format string with each parameter replaced by the display of the argument it names; nested formats, sequences and slices are composed the same way, slices as bracketed comma separated lists.", "quantifier": "all frames", "why_tests_cant": "unbounded nesting and sizes", "anchors": ["decoder/src/frame.rs: DisplayFrame, DisplayMessage, DisplayTimestamp, format_args_real"]}
{"id": "C60", "title": "byte slices display every byte", "statement": "A byte slice displayed with a number hint shows each byte in order as a number in that base.", "quantifier": "all byte strings and number hints", "why_tests_cant": "infinite input space", "anchors": ["decoder/src/frame.rs: format_bytes"]}
{"id": "C61", "title": "malformed DEFMT_LOG is a compile error", "statement": "If something between two commas of DEFMT_LOG is neither a level, nor a module path, nor path=level, compilation fails; if everything is, it does not fail. No directive is silently ignored.", "quantifier": "all texts", "why_tests_cant": "infinite input space", "anchors": ["macros/src/function_like/log/env_filter/parse.rs: defmt_log, ModulePath::parse, parse_log_level"]}
{"id": "C62", "title": "the table contains the program's messages", "statement": "Every message, interned string and type format the macros put in the program appears in the table at the address of its symbol with its tag and text, the timestamp too, and nothing else does; a file made by the macros and the linker script is accepted. What a log statement sends is then decoded to its own level, text and arguments.", "quantifier": "all programs, messages, symbol orders", "why_tests_cant": "all symbol lists and texts", "anchors": ["decoder/src/elf2table/mod.rs: parse_impl", "macros/src/construct.rs: static_variable"]}
{"id": "C63", "title": "bitflags end to end", "statement": "For every bitflags! definition, the host shows a value as the names of the flags set in it, in definition order, whatever order the symbols have and whichever flags are disabled by cfg.", "quantifier": "all definitions, values, symbol orders", "why_tests_cant": "all definitions and orders of symbols", "anchors": ["macros/src/items/bitflags.rs: expand, codegen_flag_statics", "decoder/src/elf2table/mod.rs: parse_impl", "parser/src/display_hint.rs: parse"]}
{"id": "C64", "title": "documented log formats mean what the book says", "statement": "Every --log-format string written by the rules of the book chapter on custom log output is accepted if it contains {s} and rejected otherwise, and stands for exactly the specifiers, texts, groups, colours, styles, widths and paddings written in it.", "quantifier": "all format strings of the documented grammar", "why_tests_cant": "infinite, recursive grammar", "anchors": ["decoder/src/log/format/parser.rs: parse", "book/src/custom-log-output.md"]}
{"id": "C65", "title": "a log line is what the format asks for", "statement": "For every format and record, the visible characters of the printed line are the texts of the format and the values of its specifiers in order, padded as requested, groups padded as a whole; the predefined formats print timestamp, level, message and location; a record without a level is printed as its message alone.", "quantifier": "all formats, records and terminals", "why_tests_cant": "infinite input space", "anchors": ["decoder/src/log/format/mod.rs: InternalFormatter::format, build_segment, build_nested, InternalFormatter::new"]}
{"id": "C66", "title": "file name specifier", "statement": "A specifier of n f's prints the last n names of the path of the source file.", "quantifier": "all paths and n", "why_tests_cant": "infinite input space", "anchors": ["decoder/src/log/format/mod.rs: build_file_name"]}
{"id": "C67", "title": "failed assert_eq output shows both values", "statement": "When a message ends with the two value lines of a failed assert_eq!, the output shows the lines before and both values in full; every other message is shown unchanged.", "quantifier": "all messages", "why_tests_cant": "infinite input space", "anchors": ["decoder/src/log/format/mod.rs: color_diff, build_log"]}
{"id": "C68", "title": "contradictory log formats are rejected", "statement": "A --log-format string that gives a colour or a width twice, repeats a style, or puts two specifiers in one pair of brackets, anywhere including inside groups, is rejected, whatever follows it.", "quantifier": "all formats that are otherwise as documented, all texts after", "why_tests_cant": "infinite, recursive grammar", "anchors": ["decoder/src/log/format/parser.rs: build_log_segment", "book/src/custom-log-output.md: Color, Styles"]}
{"id": "C69", "title": "colours and styles cover exactly what was asked", "statement": "On a terminal every character of a printed line has the colour and styles requested for its specifier and for the groups around it and no others; severity and werror follow the level of the record; nothing leaks past the end of the line; without a terminal no escape sequence is written.", "quantifier": "all formats, records and levels", "why_tests_cant": "infinite input space, nested resets", "anchors": ["decoder/src/log/format/mod.rs: build_formatted_string, apply_color, apply_styles, build_nested", "book/src/custom-log-output.md"]}
{"id": "C70", "title": "derived values are shown as by derive(Debug)", "statement": "A value of a derived type is shown as Name, Name(a, b) or Name { x: a, y: b } with its fields in declaration order, where each field is shown as its own argument would be.", "quantifier": "all struct/enum shapes, values and surrounding hints", "why_tests_cant": "unbounded numbers of fields and variants, recursive values", "anchors": ["macros/src/derives/format/codegen/fields.rs: codegen", "macros/src/derives/format/codegen/enum_data.rs: encode", "decoder/src/frame.rs: format_args_real"]}
{"id": "C71", "title": "Debug2Format and Display2Format ignore display hints", "statement": "Text formatted on the target through Debug2Format or Display2Format is shown as it is, whatever display hint is given in the format string around it.", "quantifier": "all texts, hints and nestings", "why_tests_cant": "all texts and hints", "anchors": ["defmt/src/impls/adapter.rs: Debug2Format, Display2Format", "decoder/src/frame.rs: format_args_real, format_str"]}
{"id": "C72", "title": "exactly the documented format strings are accepted", "statement": "A format string is accepted by the macros exactly if it consists of text with doubled braces and of parameters written as index, =type and :hint (each optional) in the documented grammar, arguments are numbered without gaps and all uses of an argument have one type; everything else is a compile error. The host accepts in addition any other non-empty hint.", "quantifier": "all strings", "why_tests_cant": "unbounded strings; tests show some accepted and some refused ones", "anchors": ["parser/src/lib.rs: parse, parse_param, parse_array, parse_range, push_literal", "parser/src/display_hint.rs: DisplayHint::parse", "parser/src/types.rs: Type::from_str"]}
{"id": "C73", "title": "panic and assert messages are shown with message, condition and values", "statement": "panic!, todo!, unreachable!, assert!, unwrap!, assert_eq! and assert_ne! accept the messages error! accepts; the host shows the documented heading, the message exactly as error! would show it, for assert!, unwrap! and dbg! without message the expression as it is written in the source (including braces), and for unwrap!, assert_eq! and assert_ne! the values exactly as {:?} would show them, left as left and right as right.", "quantifier": "all messages (any format string and arguments), all expressions, all values", "why_tests_cant": "format strings are open ended and glued to a fixed text by the macro; braces, indices and internal hints interact", "anchors": ["macros/src/function_like/panic_like.rs:expand", "macros/src/function_like/assert_like/assert.rs:expand", "macros/src/function_like/assert_like/unwrap.rs:expand", "macros/src/function_like/assert_binop.rs:expand", "macros/src/function_like/dbg.rs:codegen", "macros/src/construct.rs:escaped_expr_string"]}
{"id": "C74", "title": "assertions panic exactly if they fail", "statement": "assert!, assert_eq!, assert_ne! and unwrap! log one ERROR message and panic exactly if the condition is false, the values are unequal, equal, or the value is Err or None; they also panic if error messages are compiled out; otherwise they log nothing and unwrap! returns the value. The debug_ variants do nothing without debug assertions. dbg! returns its values in order and logs each once at TRACE.", "quantifier": "all values, all log settings", "why_tests_cant": "all combinations of settings and values", "anchors": ["macros/src/function_like/assert_like/assert.rs:expand", "macros/src/function_like/assert_like/unwrap.rs:expand", "macros/src/function_like/assert_binop.rs:expand", "macros/src/function_like/dbg.rs:codegen", "macros/src/lib.rs:debug_assert_", "defmt/src/export/traits.rs:IntoResult"]}
{"id": "C75", "title": "logging over RTT from several contexts, end to end", "statement": "With a connected host, whatever the tasks, interrupts, the RTT channel and the host do and in whatever order, what is printed at any moment are exactly the first k log statements, in the order of their completion, with their values: none missing, duplicated, mixed or malformed. When defmt::flush returns, all of them are printed. Calls of the channel never overlap, and a context inside of a log statement is never blocked by another one.", "quantifier": "all schedules of any number of contexts, channel steps (byte by byte) and host reads; buffer sizes, log statements, chunkings", "why_tests_cant": "unbounded schedules over the composition of logger, channel, stream decoder and printer", "anchors": ["firmware/defmt-rtt/src/lib.rs: acquire, write, flush, release, do_write", "firmware/defmt-rtt/src/channel.rs: write_all, flush", "decoder/src/stream/rzcobs.rs", "print/src/main.rs"]}
{"id": "C76", "title": "attaching to a running program", "statement": "A host that attaches to a program that has been logging without one gets the newest (total modulo buffer size) bytes written before and everything written afterwards without a gap; with rzCOBS at most one line is printed that is not a log statement of the program, then the log statements in order without a gap, starting at the latest with the second one completed after attaching.", "quantifier": "all histories before attaching, all schedules afterwards, buffer sizes", "why_tests_cant": "unbounded histories; depends on where the ring buffer cuts a frame", "anchors": ["firmware/defmt-rtt/src/channel.rs: nonblocking_write, write_impl", "firmware/defmt-rtt/src/lib.rs", "decoder/src/stream/rzcobs.rs: decode"]}
{"id": "C77", "title": "frames keep their level, timestamp, message and location on the way to the logger; output channels", "statement": "A decoded frame handed to the host's log facade arrives at the logger with exactly its level, timestamp text, message and location, whatever characters they contain, and without a panic unless the frame itself cannot be displayed. Frames are printed to stdout only (println! frames as they are, the others through the formatter); log records of the host are hidden unless verbose is given, and then go to stderr only, with and without JSON.", "quantifier": "all frames, texts (all characters), locations, formatters, options, host records", "why_tests_cant": "arbitrary characters pass through a JSON payload inside of the log target", "anchors": ["decoder/src/log/mod.rs: log_defmt, DefmtRecord::new, is_defmt_frame", "decoder/src/log/stdout_logger.rs: StdoutLogger::log", "print/src/main.rs: location_info, forward_to_logger"]}
{"id": "C78", "title": "JSON output: one readable line per frame", "statement": "With --json stdout is a sequence of lines of JSON: the schema version, then exactly one line per frame in order; no line contains a line break, and reading a line with the published schema gives back exactly the message, the level, the timestamp, the host time and the file, line and module path of the log statement, whatever characters they contain.", "quantifier": "all frames, texts, locations, host times, numbers of frames", "why_tests_cant": "arbitrary characters and unbounded sequences; a single unescaped character breaks the consumer", "anchors": ["decoder/src/log/json_logger.rs: JsonLogger, create_json_frame, create_module_path", "decoder/defmt-json-schema/src/lib.rs", "print/src/main.rs: run"]}
{"id": "C79", "title": "host log records do not make the logger panic", "statement": "A log record of the host process, with any target, never makes the logger panic.", "quantifier": "all targets and records", "why_tests_cant": "arbitrary target strings", "anchors": ["decoder/src/log/mod.rs: DefmtRecord::new"]}
{"id": "C80", "title": "from log statements to what the user reads", "statement": "With the default format on a terminal without colours, whatever the contexts of the program, the RTT channel, the host and the chunking do, the text on stdout at any moment consists of the lines of the first k completed log statements, in order: timestamp (if the program has one), level in five columns, message and with -v the location (println!: only the message); all of them when everything was read. With --json the same holds for the lines of C78. Nothing is written to stderr.", "quantifier": "all schedules, log statements, chunkings, options, locations", "why_tests_cant": "composition of all layers over unbounded executions", "anchors": ["firmware/defmt-rtt/src/lib.rs", "decoder/src/stream/rzcobs.rs", "decoder/src/log/mod.rs", "decoder/src/log/format/mod.rs", "print/src/main.rs: run"]}
{"id": "C81", "title": "provided types are shown as their value", "statement": "Any value built from the types for which the library provides Format (integers, floats, strings, Option, Result, tuples, slices, arrays of every length, references, boxes, vectors, ranges, cells, NonZero numbers, Duration, addresses, pointers, panic locations, errors), at any nesting, logged with {} or {:?}, is sent without panicking and shown by the host as the text of that value put together from the texts of its parts.", "quantifier": "all values of all provided types at any nesting depth, tables, following bytes", "why_tests_cant": "The types nest without bound, and arrays use one of 66 format strings depending on the length; tests only check a few combinations.", "anchors": ["defmt/src/impls/primitives.rs", "defmt/src/impls/arrays.rs", "defmt/src/impls/tuples.rs", "defmt/src/impls/alloc_.rs", "defmt/src/impls/core_/mod.rs", "defmt/src/impls/core_/cell.rs", "defmt/src/impls/core_/net.rs", "defmt/src/impls/core_/ops.rs", "decoder/src/decoder.rs: Decoder::decode_format", "decoder/src/frame.rs: Frame::format_args"]}
{"id": "C82", "title": "newtypes that delegate", "statement": "A user type whose format method calls the format method of a value inside it (the way the book recommends for newtypes) is shown exactly like that value, under every display hint.", "quantifier": "all inner values, hints and tables", "why_tests_cant": "Whether delegation works depends on the kind of the inner type and its nesting.", "anchors": ["book/src/format.md: Newtypes", "defmt/src/traits.rs: Format", "defmt/src/impls/mod.rs: default_format!", "decoder/src/decoder.rs: Decoder::decode_format (FormatSequence)"]}
{"id": "C83", "title": "hints reach the leaves", "statement": "A display hint on a compound value of provided types is applied to every primitive value in it as if that value were logged alone with the hint, and to nothing else; pointers and IPv6 addresses keep their own hexadecimal form.", "quantifier": "all values, all hints except a (ASCII), all tables", "why_tests_cant": "Hints travel through every level of nesting; no finite set of nestings covers this.", "anchors": ["decoder/src/frame.rs: Frame::format_args", "book/src/hints.md: Propagation", "defmt/src/impls/core_/net.rs", "defmt/src/impls/primitives.rs"]}
{"id": "C84", "title": "logging a value does not panic on the device", "statement": "Logging a value of the provided types never panics on the target.", "quantifier": "all values at any nesting", "why_tests_cant": "A panic can hide in a type parameter that occurs only in one corner of a nested type.", "anchors": ["defmt/src/impls/core_/mod.rs: Infallible", "defmt/src/export/mod.rs: fmt_slice, fmt_array"]}
{"id": "C85", "title": "the location shown with a message is that of its log statement", "statement": "The file, line and module path the host shows for a message are those of the log statement that produced it: the module path consists of the modules and functions the statement is written in. Variables that are not log statements and statements removed by the linker never provide a location.", "quantifier": "all debug information (any nesting of modules and functions, any order of entries), all symbol tables", "why_tests_cant": "The module path is tracked by a stack over a depth first walk; whether it is right depends on the order of siblings anywhere in the tree.", "anchors": ["decoder/src/elf2table/mod.rs: get_locations, file_index_to_path, exprloc2address"]}
{"id": "C86", "title": "locations are unambiguous and complete, or omitted", "statement": "The lookup of locations succeeds exactly if the debug information can be read and no two log statements of the program have the same address; it never silently picks one of two. If debug information describes all log statements of the program, every message is shown with a location; if it lacks one, none is.", "quantifier": "all debug information, all tables, all frames", "why_tests_cant": "depends on all statements of a program at once", "anchors": ["decoder/src/elf2table/mod.rs: get_locations", "decoder/src/lib.rs: Table::indices, Table::raw_symbols", "print/src/main.rs: run, location_info"]}
{"id": "C87", "title": "tests run in the order of the source, with the hooks around each", "statement": "A test module that compiles runs: the init function; then for each test that is compiled, in the order of the source, the line (i/n) with its number and the number of all, the before-each function, the test, the after-each function; then the verdict, the teardown function and exit. A test with #[ignore] is announced and not run. After the first panic and after the first failed test nothing else runs.", "quantifier": "all modules (any number of functions, in any order, any attributes), all behaviours of the functions", "why_tests_cant": "Which functions run when depends on all attributes of all functions and on what each function did.", "anchors": ["firmware/defmt-test/macros/src/lib.rs: tests_impl", "firmware/defmt-test/src/export.rs: check_outcome, exit"]}
{"id": "C88", "title": "all tests passed means that all tests passed", "statement": "\"all tests passed!\" is shown exactly if the init function, every test and the functions before and after it returned and every test had the outcome that is wanted: success, or an error for #[should_error]. The application exits with status 0 exactly if moreover the teardown function returned.", "quantifier": "all modules, all behaviours of the functions", "why_tests_cant": "A wrong verdict needs a particular combination of attributes and outcomes; the harness cannot be tested by the tests it runs.", "anchors": ["firmware/defmt-test/macros/src/lib.rs: tests_impl", "firmware/defmt-test/src/lib.rs: TestOutcome", "firmware/defmt-test/src/export.rs: check_outcome"]}
{"id": "C89", "title": "which test modules are accepted", "statement": "A test module is accepted exactly if every function has exactly one role; init, teardown, before-each and after-each functions occur at most once and without #[should_error] or #[ignore]; the signatures are plain with no parameter or one &mut T where T is the type that init returns; and functions that are called are not compiled out.", "quantifier": "all modules", "why_tests_cant": "compile time decision over all combinations of attributes and signatures", "anchors": ["firmware/defmt-test/macros/src/lib.rs: tests_impl, check_fn_sig, get_mutable_reference_type, extract_cfgs"]}
{"id": "C90", "title": "arguments are evaluated once, in order, before the frame", "statement": "The argument expressions of a log statement are evaluated exactly once each, in the order of the source, before the frame of the statement begins, and also if the statement is filtered out; log statements executed by them give complete frames of their own before it.", "quantifier": "all programs (any control flow, log statements anywhere in functions called from arguments), all filters", "why_tests_cant": "Depends on arbitrary code in the arguments and in what it calls; a test shows one program.", "anchors": ["macros/src/function_like/log.rs: expand_parsed", "macros/src/function_like/println.rs: expand_parsed", "defmt/src/export/mod.rs: acquire_and_header, acquire_header_and_release", "firmware/defmt-rtt/src/lib.rs: acquire, release"]}
{"id": "C91", "title": "DEFMT_LOG changes nothing but the log", "statement": "As long as Format implementations only format, a program does the same (same calls, effects, panics and faults, in the same order, same state; it ends if it ends) whatever DEFMT_LOG selects.", "quantifier": "all programs, all pairs of filters, all prefixes of executions including infinite ones", "why_tests_cant": "relates two executions of every program", "anchors": ["macros/src/function_like/log.rs: expand_parsed"]}
{"id": "C92", "title": "panics end in a fault and their message is shown once", "statement": "A panic ends in a hard fault; the handler is entered at most twice, no matter what formatting the message does, and nothing follows the fault. With print-defmt the message of the panic is shown, exactly once.", "quantifier": "all programs, all panics, including panics while the message of a panic is formatted", "why_tests_cant": "Panics inside of logging inside of panic handling are not reached by tests; absence of infinite recursion is about all programs.", "anchors": ["firmware/panic-probe/src/lib.rs: panic, hard_fault, print", "macros/src/function_like/panic_like.rs: expand", "macros/src/attributes/panic_handler.rs: codegen", "defmt/src/lib.rs: default_panic", "firmware/defmt-rtt/src/lib.rs: acquire"]}
{"id": "C93", "title": "linking keeps the strings of a program and the host finds them", "statement": "For every program that links: every string in use has an index from 1 to 65533 of its own, and the host finds at this index the text and the level of the statement; it knows all flags of every bitflags! type with their values, the timestamp and the encoding, and decodes what a log statement sends to the level, text and arguments of this statement. Two timestamp! (or two copies of defmt) do not link.", "quantifier": "all programs (any multiset of macro invocations), all ways of the compiler to group and order the statics, all subsets that are in use, all targets (alignments), any other symbols in the file", "why_tests_cant": "The layout of the section depends on the whole program, the compiler and the linker script; a test links one program with one compiler.", "anchors": ["defmt/defmt.x.in", "macros/src/construct.rs: linker_section, static_variable, interned_string", "macros/src/function_like/intern.rs, internp.rs, log.rs, println.rs, write.rs", "macros/src/items/bitflags.rs: codegen_flag_statics", "macros/src/items/timestamp.rs: expand", "defmt/src/lib.rs: DEFMT_VERSION, DEFMT_ENCODING"]}
{"id": "C94", "title": "indices tell the level", "statement": "The index of a string is in the range of a level that IdRanges::get reports if and only if the string is a log statement of this level, and the ranges are in the order of the severity.", "quantifier": "all programs that link, all layouts, all levels, all strings in use", "why_tests_cant": "Depends on the placement of every string of the program by the linker script.", "anchors": ["defmt/src/lib.rs: IdRanges::get", "defmt/defmt.x.in", "macros/src/function_like/log.rs: expand_parsed"]}
{"id": "C95", "title": "capacity of the index space", "statement": "A program links as long as no symbol occurs twice and it uses at most 65532 interned strings; only strings in use count.", "quantifier": "all programs, all layouts", "why_tests_cant": "A test would have to link programs of the maximal size; which statics count depends on the rules of the script.", "anchors": ["defmt/defmt.x.in: ASSERT, .defmt.end", "macros/src/items/bitflags.rs: codegen_flag_statics"]}
{"id": "C96", "title": "a decoded frame is not larger than its bytes", "statement": "The number of values in a decoded frame, and the length of the texts and byte strings in it, is bounded by the number of bytes it was decoded from, also for corrupted or hostile input, so that the memory the host needs is bounded by what it received.", "quantifier": "all tables, all byte strings that decode", "why_tests_cant": "The worst input is not one a test would produce: it depends on lengths in the bytes and on the strings in the table.", "anchors": ["decoder/src/decoder.rs: decode_format_slice, decode_format", "decoder/src/lib.rs: Table::decode"]}
{"id": "C97", "title": "from the source code to the terminal", "statement": "For a program that was compiled, linked and runs: at every moment, defmt-print, started with the program's ELF file and connected through a blocking RTT channel, shows exactly the lines of the first k log statements executed, in order, with the texts their arguments stand for, and nothing else; all of them when all bytes have arrived.", "quantifier": "all programs (macro invocations, link orders, sections kept or dropped), all interleavings of contexts, interrupts, host and channel, all arguments, all ways of cutting the bytes into chunks", "why_tests_cant": "It joins macros, linker script, ELF parser, encoder, channel, stream decoder, frame decoder, formatter and logger; tests exercise a few fixed programs on one schedule.", "anchors": ["macros/src/construct.rs", "defmt/defmt.x.in", "firmware/defmt-rtt/src/lib.rs", "decoder/src/elf2table/mod.rs: parse_impl", "decoder/src/stream/rzcobs.rs", "decoder/src/log/stdout_logger.rs", "print/src/main.rs: run"]}
{"id": "C98", "title": "what defmt-print prints over its whole life", "statement": "While it is waiting for input, the output of defmt-print is the concatenation of the outputs for each stretch between two loads of the ELF file, each as if the file and the bytes of that stretch were all there ever was; with --watch-elf the file is loaded again whenever a change is noticed.", "quantifier": "all histories of input, changes of the file, notifications and ends of the input, all options and sources", "why_tests_cant": "Depends on the order of events outside the program (input, file system, notifications), in any number.", "anchors": ["print/src/main.rs: run, run_and_watch, has_file_changed, Source::read", "decoder/src/log/mod.rs: init_logger"]}
{"id": "C99", "title": "when defmt-print ends, and how", "statement": "defmt-print ends without an error exactly when the standard input is closed (and the file is not watched); it ends with an error exactly when the input cannot be read, the file cannot be loaded, or a frame of a raw stream is malformed; when it has ended nothing more is printed.", "quantifier": "all histories of input, changes of the file, notifications and ends of the input, all options and sources", "why_tests_cant": "Depends on the order of events outside the program; that something never happens cannot be tested.", "anchors": ["print/src/main.rs: main, run, run_and_watch, Source::read"]}
{"id": "C100", "title": "which symbol names the decoder understands", "statement": "The decoder understands a symbol name exactly if it is a JSON text (RFC 8259) that is an object with the string members package, disambiguator, tag and data, each exactly once, and at most one crate_name that is a string or null, in any order and with any other members; or an array of these five. What the macros write and every line of --json is a JSON text.", "quantifier": "all texts", "why_tests_cant": "There are infinitely many texts to accept and to refuse (white space, escapes, surrogate pairs, numbers, nesting); tests try a few.", "anchors": ["decoder/src/elf2table/symbol.rs: Symbol::demangle", "macros/src/construct/symbol.rs: mangle, json_escape", "decoder/src/log/json_logger.rs"]}
{"id": "C101", "title": "attaching and detaching in the middle of a write", "statement": "Whenever a host changes the mode of the RTT channel, also in the middle of a write, target and host stay inside of the buffer, and the running call keeps the mode with which it started. A host that attaches at any moment while it is not reading gets what was unread and everything written afterwards, in order and without a gap. (False if the running non-blocking write fills the buffer: then bytes that the host is reading are overwritten.) A target that is in a blocking write when the host detaches with a full buffer never leaves this write.", "quantifier": "all histories of mode changes, all states of the target and of the buffer at which the host attaches or detaches, all schedules afterwards", "why_tests_cant": "the moment at which the debugger attaches relative to the byte copies and cursor stores of the target cannot be chosen in a test", "anchors": ["firmware/defmt-rtt/src/channel.rs: Channel::write_all, nonblocking_write, blocking_write, write_impl, flush, host_is_connected"]}
{"id": "C102", "title": "late visibility of memory stores", "statement": "The RTT channel also works when stores of the target and of the host become visible to the other side late and, as far as the memory orderings in the code allow, out of order: with a connected host the bytes read are exactly the bytes written, in order and without a gap; flush returns only when everything was read; nothing the host may be reading is overwritten; and every write and flush returns if stores become visible eventually and the host keeps reading. The Release ordering of the store of the write cursor is necessary: without it the host can read bytes that were never written.", "quantifier": "all interleavings of single steps of target, host and memory, with any delay of any store", "why_tests_cant": "reorderings of memory operations depend on the processor and on timing, and most test machines never show them", "anchors": ["firmware/defmt-rtt/src/channel.rs: Channel::write_all, blocking_write, nonblocking_write, write_impl, flush"]}
{"id": "C103", "title": "who is called", "statement": "In a program that links, every log statement uses one and the same global logger: all four functions it needs belong to the same #[global_logger], which is one in the crate graph; if there is none the program does not link as soon as something is logged. Log statements call the timestamp of a timestamp! in the crate graph, and the empty default only if there is none; defmt::panic! ends in a #[defmt::panic_handler] of the crate graph and in the default only if there is none, and with avoid-default-panic a program without a handler that panics does not link. The host decodes timestamps with the string of exactly the timestamp! that the target calls. In whatever order the linker searches libraries, a program without duplicates links and contains the same parts. Two loggers, timestamps or handlers are refused.", "quantifier": "all programs (any object files in the application and in libraries), all orders in which libraries are searched, both values of the feature avoid-default-panic", "why_tests_cant": "whether a part is taken from a library depends on the whole program and on the order of the command line; a test project links one program", "anchors": ["defmt/defmt.x.in: EXTERN, PROVIDE", "defmt/build.rs: main, avoid_default_panic", "macros/src/attributes/global_logger.rs: expand", "macros/src/attributes/panic_handler.rs: expand", "macros/src/items/timestamp.rs: expand", "defmt/src/lib.rs: default_timestamp, default_panic, flush", "defmt/src/export/mod.rs: acquire, release, write, timestamp, panic"]}
{"id": "C104", "title": "nothing else is accepted", "statement": "The host accepts nothing but what the program can send: whatever bytes arrive (truncated, corrupted, from another program), if they are decoded to a frame of a log statement, then some execution of this statement with arguments that type check sends exactly the bytes that were consumed and means exactly the frame that is shown. In particular booleans other than 0 and 1, numbers that are no characters, text that is not UTF-8 and variants that do not exist are rejected.", "quantifier": "all byte strings, all tables of programs", "why_tests_cant": "the space of corrupted inputs cannot be enumerated, and a decoder that is too lenient passes every test with valid frames", "anchors": ["decoder/src/decoder.rs: Decoder::decode_format, get_format, get_variant, decode_format_slice", "decoder/src/lib.rs: Table::decode", "macros/src/function_like/log/codegen.rs: encode_arg", "defmt/src/export/mod.rs"]}
{"id": "C105", "title": "the RTT buffer has the size asked for", "statement": "Whatever the environment variable DEFMT_RTT_BUFFER_SIZE holds, the firmware either has an RTT buffer of exactly the number written in it, with which writes complete and no cursor computation overflows, or it cannot be built; without the variable it has 1024 bytes.", "quantifier": "all contents of the environment variable, all widths of usize", "why_tests_cant": "infinite input space; build time configuration that no test sets to unusual values", "anchors": ["firmware/defmt-rtt/build.rs: main", "firmware/defmt-rtt/src/consts.rs: BUF_SIZE", "firmware/defmt-rtt/src/channel.rs: write_impl, available_buffer_size"]}
{"id": "C106", "title": "qemu-run shows everything and passes on the status", "statement": "Whatever the timing of the emulator and of reading from it, at every moment qemu-run has shown the lines of the first frames of what the emulator has written, in order; when the emulator has ended, qemu-run ends too, having shown every frame, with the exit status of the emulator, or with an error exactly if something malformed was sent, with all frames before it shown and no emulator left running.", "quantifier": "all interleavings of writes, reads of any size, polls and the end of the emulator, all byte streams, both encodings", "why_tests_cant": "schedules; the end of the process can fall between any two steps", "anchors": ["qemu-run/src/main.rs: main, notmain, decode, KillOnDrop"]}
{"id": "C107", "title": "For which instances a derived Format exists", "statement": "An instance of a type with #[derive(Format)] implements Format exactly if the user's own bounds hold and the type of every field implements the trait needed for it (Format; Debug or Display if an attribute asks for it), with no demand on the type parameters themselves; the generated code type checks for all type parameters; no bound is superfluous and the where clause adds no compile error. Consequently a type that contains itself inside wrappers like Option or Box never implements Format by deriving. (Type parameters must not be named like a built-in type.)", "quantifier": "all struct and enum definitions, all type parameters and instances, all programs around them", "why_tests_cant": "all definitions and all instances; a test compiles a few types", "anchors": ["macros/src/derives/format/codegen.rs: Generics", "macros/src/derives/format/codegen/fields.rs: codegen", "macros/src/derives/format/codegen/enum_data.rs: encode", "macros/src/derives/format.rs: expand"]}
{"id": "C108", "title": "The expressions given to a macro mean what they mean at the call", "statement": "Each expression given to a log macro, println!, panic!, todo!, unreachable!, unimplemented!, assert!, assert_eq!, assert_ne!, unwrap!, dbg!, write! or timestamp! is evaluated in the scope of the call, at most once and from left to right: a variable in it is the user's variable, whatever its name, and what is sent are these values. Log statements that are disabled evaluate their arguments as well. The code: false for the message arguments of assert_eq!, assert_ne! (left_val, right_val) and unwrap! (_unwrap_err), the arguments of write! (_typecheck_formatter) and of timestamp! (S, fmt), which see the bindings of the generated code.", "quantifier": "all argument expressions, all scopes, all program states, all numbers of arguments, all filters", "why_tests_cant": "names of variables and numbers of arguments are unbounded; a test uses names its author thought of", "anchors": ["macros/src/function_like/log.rs: expand_parsed", "macros/src/function_like/log/codegen.rs: Codegen::new", "macros/src/function_like/assert_like/assert.rs: expand", "macros/src/function_like/assert_like/assert_binop.rs: codegen", "macros/src/function_like/assert_like/unwrap.rs: expand", "macros/src/function_like/dbg.rs: codegen", "macros/src/function_like/write.rs: expand", "macros/src/items/timestamp.rs: expand"]}
{"id": "C109", "title": "Which macro calls are accepted", "statement": "A call of a log macro, println!, timestamp!, panic! (and todo!, unimplemented!, unreachable!), assert!, unwrap!, assert_eq!, assert_ne!, write! or dbg! (and of bitflags!, with one struct of semicolon separated constants) is accepted exactly if what is written between the parentheses is a comma separated list, perhaps with a comma after the last element, of the right shape: a string literal and any number of arguments (log), nothing or the same (panic!), an expression and perhaps the same (assert!, unwrap!), two expressions and perhaps the same (assert_eq!, assert_ne!), the formatter and the same (write!), anything (dbg!). The literal is taken as the format string and the rest as arguments in the written order. intern! takes one literal and no trailing comma.", "quantifier": "all token sequences of expressions and commas, all expressions", "why_tests_cant": "the number of arguments and the positions of commas are unbounded; compile-fail tests cover some", "anchors": ["macros/src/function_like/log/args.rs: Args::parse", "macros/src/function_like/write/args.rs: Args::parse", "macros/src/function_like/assert_like.rs: Args::parse", "macros/src/function_like/assert_binop/args.rs: Args::parse", "macros/src/function_like/dbg/args.rs: Args::parse", "macros/src/function_like/panic_like.rs: expand", "macros/src/function_like/intern.rs: expand"]}
{"id": "C110", "title": "How many bytes a log statement sends", "statement": "A frame takes two bytes for its index, the timestamp, and for each argument exactly: its size for numbers, bool, char (4), byte arrays; the smallest integer for the octets of a bitfield; 2 for an interned string; 4 and the bytes for strings and byte slices; the text and one for Debug2Format and Display2Format; 2 and the contents for {=?}, the same once for all elements of an array, and 4 more for a slice; a discriminant of the smallest size for the number of variants. A statement whose parameters have fixed sizes always takes the same number of bytes, and rzCOBS adds at most one byte per 134 and two.", "quantifier": "all log statements, values, nestings", "why_tests_cant": "values and nestings are infinitely many; bandwidth is not looked at by the tests", "anchors": ["defmt/src/export/mod.rs", "defmt/src/export/integers.rs", "defmt/src/encoding/rzcobs.rs", "book/src/istr.md", "book/src/format-slices.md", "book/src/primitives.md", "book/src/ser-bitfield.md"]}
{"id": "C111", "title": "The arguments of a log statement are type checked", "statement": "A call compiles exactly if its format string is fine, there is one argument for each index, and each argument, and every value nested in it, has the type named by its parameter: {=u16} takes an u16 only, {=[u8; N]} and {=[?; N]} only arrays of that length, {=?} values that implement Format; a bitfield takes an unsigned integer, and any that is large enough to contain the bits.", "quantifier": "all format strings, arguments of all types, nested values", "why_tests_cant": "the calls are infinitely many, and those that do not compile are looked at by a few compile-fail tests only", "anchors": ["macros/src/function_like/log/codegen.rs:Codegen::new", "macros/src/function_like/log/codegen.rs:encode_arg", "defmt/src/export/mod.rs", "defmt/src/export/traits.rs:Truncate", "book/src/primitives.md", "book/src/bitfields.md"]}
{"id": "C112", "title": "Timestamps never go back", "statement": "With a clock that does not run backwards, the log statements of all contexts (threads, interrupts, cores) appear in the order of their timestamps, and each timestamp was taken while the statement had the logger: after its arguments were evaluated and before its frame was ended. Frames do not overlap in time.", "quantifier": "all numbers of contexts, schedules, clocks, timestamp! formats; the three loggers; for RTT also all behaviours of the host", "why_tests_cant": "the schedules are infinitely many and cannot be chosen in a test", "anchors": ["macros/src/items/timestamp.rs", "defmt/src/export/mod.rs:acquire_and_header", "macros/src/function_like/log.rs", "firmware/defmt-rtt/src/lib.rs", "firmware/defmt-itm/src/lib.rs", "firmware/defmt-semihosting/src/lib.rs"]}
{"id": "C113", "title": "What the attributes accept", "statement": "`#[defmt::panic_handler]` accepts exactly functions written `fn name() -> !` and `#[global_logger]` exactly structs written `struct Name;`, neither with arguments; everything else is a compile error. The item stays in the program with its attributes, name and body and becomes the function that panics call, or the logger that every log statement uses. `#[defmt(crate = path)]` at a derived type is the only entry accepted, and the last one counts. A panic handler cannot also have `no_mangle` or `export_name`.", "quantifier": "all functions, structs, attribute lists and arguments", "why_tests_cant": "the items are infinitely many, and UI tests show only four that are refused", "anchors": ["macros/src/attributes/panic_handler.rs:validate", "macros/src/attributes/panic_handler.rs:check_for_attribute_conflicts", "macros/src/attributes/panic_handler.rs:codegen", "macros/src/attributes/global_logger.rs:validate", "macros/src/attributes/global_logger.rs:codegen", "macros/src/derives/format.rs:defmt_crate_path", "book/src/panic.md", "book/src/global-logger.md"]}
{"id": "C114", "title": "The colours on the terminal", "statement": "On a terminal with colours, what the user of defmt-print sees with the default format is, for each log statement, the timestamp, the level in the colour of the level, the message and (with -v) the location: no colour but the level's own and those that the texts bring with them, the two values of a failed assert_eq! in red and green, and nothing of one line spills into the next (a message that leaves a colour in effect colours everything up to the next level and nothing beyond). Without colours the same without colours. At every moment these are the first k statements executed by the program.", "quantifier": "all programs, executions, schedules, chunkings, levels, messages whose own sequences end within the message (all messages for the part in parentheses), terminals with and without colours", "why_tests_cant": "the order of sequences on the terminal depends on the whole history of the output", "anchors": ["decoder/src/log/format/mod.rs: build_log_level, color_for_log_level, apply_color, color_diff", "decoder/src/log/stdout_logger.rs", "print/src/main.rs"]}
{"id": "C115", "title": "The last words of a program", "statement": "At every moment defmt-print has shown exactly the first log statements that the program has executed as a whole, whatever its formatting code does and also if it panics, and all of them once the host has read everything. After a panic outside of log statements (with panic-probe and print-defmt) the message of the panic is the last line, for ever; after defmt::panic! its message, followed by the line of core::panic!() unless there is a defmt panic handler. A panic while a log statement is written shows nothing more: neither its message nor that statement. If formatting code only formats, every panic is shown.", "quantifier": "all programs (with any branching, recursion, formatting code and arguments that log), all moments of a run, all chunkings, both encodings for the bytes", "why_tests_cant": "programs and the moments at which they panic are infinitely many", "anchors": ["firmware/panic-probe/src/lib.rs", "firmware/defmt-rtt/src/lib.rs: acquire, write, release", "defmt/src/encoding/rzcobs.rs", "decoder/src/stream/rzcobs.rs", "macros/src/function_like/log.rs", "macros/src/function_like/panic_like.rs", "print/src/main.rs"]}
{"id": "C116", "title": "Any expression can be given to a macro", "statement": "Wherever a macro takes an expression, any expression of Rust can be written, and the code generated around it is well-formed: the braces and operators of the macro never attach to a part of it. The code: true for the log macros, println!, panic! and the like, assert!, assert_eq!, assert_ne!, unwrap!; dbg! takes exactly the expressions without a struct literal outside of parentheses, other than std::dbg!.", "quantifier": "all expressions, of any nesting, any number of them", "why_tests_cant": "expressions are infinitely many; tests use a few variables and calls", "anchors": ["macros/src/function_like/log.rs: expand_parsed", "macros/src/function_like/println.rs", "macros/src/function_like/assert_like/assert.rs", "macros/src/function_like/assert_like/unwrap.rs", "macros/src/function_like/assert_binop.rs: expand", "macros/src/function_like/dbg.rs: codegen"]}
{"id": "C117", "title": "The ASCII hint on compound values", "statement": "A value of provided types, of any nesting, logged with {:a}: every slice or array of bytes in it is shown as a byte string, and everything else as without a hint. The code: false for IPv6 addresses and pointers, which lose the hexadecimal form their implementation asks for (two different addresses can be shown alike), and for empty slices of bytes, which are shown as [].", "quantifier": "all values of provided types, all tables", "why_tests_cant": "Hints travel through every level of nesting, and whether a list is one of bytes is decided from the format strings of its elements.", "anchors": ["decoder/src/frame.rs: Frame::format_args", "defmt/src/impls/core_/net.rs", "defmt/src/impls/primitives.rs", "defmt/src/impls/core_/slice.rs"]}
