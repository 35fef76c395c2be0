{
 "claims": [
  {
   "property": "C01",
   "status": "proved",
   "theorems": [
    "TW.C01_utf8_roundtrip"
   ],
   "note": "UTF8::print then the scanner reads the code back with exactly the bytes printed, for all codes up to 0x7FFFFFFF."
  },
  {
   "property": "C02",
   "status": "proved",
   "theorems": [
    "TW.C02_utf16_roundtrip"
   ],
   "note": "Both byte orders; codes without UTF-16 form are printed as a character reference."
  },
  {
   "property": "C03",
   "status": "proved",
   "theorems": [
    "TW.C03_ucs4_roundtrip",
    "TW.C03_ucs2_roundtrip"
   ],
   "note": "UCS-2 and UCS-4, both byte orders."
  },
  {
   "property": "C04",
   "status": "proved",
   "theorems": [
    "TW.C04_isolatin_sound"
   ],
   "note": "All codes and all nine supported pages."
  },
  {
   "property": "C05",
   "status": "partial",
   "theorems": [
    "TW.C05_isolatin_repertoire_false",
    "TW.C05_tables",
    "TW.C05_isolatin_repertoire_partial"
   ],
   "note": "False in the code: some bytes of the high half are decoded but printed as reference; negation with witness, and the bytes for which the round trip holds."
  },
  {
   "property": "C06",
   "status": "proved",
   "theorems": [
    "TW.C06_text_roundtrip"
   ],
   "note": "Whole texts in all charsets, by induction on the text."
  },
  {
   "property": "C07",
   "status": "proved",
   "theorems": [
    "TW.C07_lookahead"
   ],
   "note": "For every sequence of calls on a TextScanner over a CStringIterator."
  },
  {
   "property": "C08",
   "status": "proved",
   "theorems": [
    "TW.C08_utf8_buffer_safe",
    "TW.C08_utf8_stray",
    "TW.C08_utf8_bad_sequence"
   ],
   "note": "No undefined behaviour on any input, stray bytes and truncated sequences."
  },
  {
   "property": "C09",
   "status": "partial",
   "theorems": [
    "TW.C09_utf16_malformed_false",
    "TW.C09_utf16_malformed_partial"
   ],
   "note": "False for a low unit below 0xDC00; the negation and the cases that hold."
  },
  {
   "property": "C10",
   "status": "partial",
   "theorems": [
    "TW.C10_position_cstring",
    "TW.C10_position_srciterator",
    "TW.C10_position_istream_false",
    "TW.C10_position_istream_partial"
   ],
   "note": "Holds for CStringIterator and SrcIterator; false for IStreamIterator at the end of the stream."
  },
  {
   "property": "C11",
   "status": "partial",
   "theorems": [
    "TW.C11_copychar_false",
    "TW.C11_copychar_partial"
   ],
   "note": "False for UTF-16 before the character is loaded; holds otherwise."
  },
  {
   "property": "C12",
   "status": "proved",
   "theorems": [
    "TW.C12_utf8_shortest"
   ],
   "note": "Shortest form by a specification of UTF-8 that does not mention the code."
  },
  {
   "property": "C13",
   "status": "proved",
   "theorems": [
    "TW.C13_encoder",
    "TW.C13_entity_denotes_one_code"
   ],
   "note": "Complete description of the effect on memory."
  },
  {
   "property": "C14",
   "status": "partial",
   "theorems": [
    "TW.C14_cstring_false",
    "TW.C14_cstring_partial"
   ],
   "note": "False for strings of 4 GiB and more; holds below."
  },
  {
   "property": "C15",
   "status": "proved",
   "theorems": [
    "TW.C15_istream",
    "TW.C15_istream_failure"
   ],
   "note": "All read schedules without empty reads; failing reads in a second theorem."
  },
  {
   "property": "C16",
   "status": "proved",
   "theorems": [
    "TW.C16_chunks",
    "TW.C16_last_chunk"
   ],
   "note": "All sequences of chunks and all numbers of reads."
  },
  {
   "property": "C17",
   "status": "proved",
   "theorems": [
    "TW.C17_static_buffer"
   ],
   "note": "All histories of calls."
  },
  {
   "property": "C18",
   "status": "partial",
   "theorems": [
    "TW.C18_checked_access_false",
    "TW.C18_checked_access_partial"
   ],
   "note": "False at index size(); holds for all other indices."
  },
  {
   "property": "C19",
   "status": "proved",
   "theorems": [
    "TW.C19_stack"
   ],
   "note": "All histories of push, pop, top, empty, clear and copying with byte level memory: out of bounds and misaligned accesses are excluded."
  },
  {
   "property": "C20",
   "status": "proved",
   "theorems": [
    "TW.C20_chunks"
   ],
   "note": "All byte inputs and all partitions into chunks."
  },
  {
   "property": "C21",
   "status": "proved",
   "theorems": [
    "TW.C21_encoding",
    "TW.C21_carriers"
   ],
   "note": "All white space, attribute orders, quotes, values; all encodings with zero bytes around ASCII characters in any byte order, shown to include those of the library; any chunks; any text behind."
  },
  {
   "property": "C22",
   "status": "proved",
   "theorems": [
    "TW.C22_no_undefined",
    "TW.C22_four_nulls"
   ],
   "note": "All inputs and partitions; exception exactly for four NUL bytes in the bytes read; no undefined behaviour; never reads behind the input."
  },
  {
   "property": "C23",
   "status": "partial",
   "theorems": [
    "TW.C23_copy_false",
    "TW.C23_calls_partial",
    "TW.C23_fresh_partial"
   ],
   "note": "False: encoding and error are not copied (witness); the results of all further calls are the same, and fresh copies are equal (partial)."
  },
  {
   "property": "C24",
   "status": "partial",
   "theorems": [
    "TW.C24_chunks_partial",
    "TW.C24_chunks_safe_partial",
    "TW.C24_chunks_false"
   ],
   "note": "Two-sided: same observations for every partition, UTF-8 under the condition that lead bytes are followed by their continuation bytes; false for truncated UTF-8 sequences inside comments (witness)."
  },
  {
   "property": "C25",
   "status": "partial",
   "theorems": [
    "TW.C25_terminates_false",
    "TW.C25_bound_partial",
    "TW.C25_plain_partial"
   ],
   "note": "False for unterminated comments etc. (witness, for every number of steps); dichotomy with a linear bound, and termination for all documents without markup declarations, well formed or not. Exactly which documents they are is told in C108."
  },
  {
   "property": "C26",
   "status": "proved",
   "theorems": [
    "TW.C26_exit_final"
   ],
   "note": "Any source, any masks, any number of calls."
  },
  {
   "property": "C27",
   "status": "proved",
   "theorems": [
    "TW.C27_line_ends"
   ],
   "note": "All items with text of any program reading a document in one piece, any masks, any charset pair, any entity map."
  },
  {
   "property": "C28",
   "status": "proved",
   "theorems": [
    "TW.C28_references"
   ],
   "note": "As C27; any text before and behind the reference, also with malformed references in it."
  },
  {
   "property": "C29",
   "status": "partial",
   "theorems": [
    "TW.C29_hex_false",
    "TW.C29_large_false",
    "TW.C29_empty_false",
    "TW.C29_ampersands_partial"
   ],
   "note": "False for malformed hexadecimal references, too large numbers and numbers without digits (witnesses); holds for the rest."
  },
  {
   "property": "C30",
   "status": "partial",
   "theorems": [
    "TW.C30_user_entities_false",
    "TW.C30_example_false",
    "TW.C30_user_entities_partial"
   ],
   "note": "False: the map is keyed by pointers and looked up with the address of the buffer of the scanner; exact description of what happens."
  },
  {
   "property": "C31",
   "status": "proved",
   "theorems": [
    "TW.C31_masks",
    "TW.C31_suppressed",
    "TW.C31_entity_differs"
   ],
   "note": "Any two programs with the same calls but different masks, any document in one piece, any charset pair and entity map; the exception is stated exactly."
  },
  {
   "property": "C32",
   "status": "partial",
   "theorems": [
    "TW.C32_roundtrip_false",
    "TW.C32_roundtrip_partial",
    "TW.C32_string"
   ],
   "note": "All document trees, with header and document type; names and header strings with characters that the scanner takes for markup are excluded. Missing: codes above 0x7FFFFFFF with UTF-8 output and NUL characters (false, witness), header and document type for application encodings not based on ASCII (C60)."
  },
  {
   "property": "C33",
   "status": "partial",
   "theorems": [
    "TW.C33_copy_partial",
    "TW.C33_entity_map_false",
    "TW.C33_after_error"
   ],
   "note": "All copy points after an item (or before the first), any further calls; false only if the entity map has entries for buffer addresses (witness). A copy after an error may differ, too (witness)."
  },
  {
   "property": "C34",
   "status": "partial",
   "theorems": [
    "TW.C34_position",
    "TW.C34_token_end",
    "TW.C34_token_start_partial",
    "TW.C34_suppressed_false",
    "TW.C34_header_false"
   ],
   "note": "All reachable scanners. The position of a token is false for suppressed items and a header after an error (witnesses); documents up to 2^64-16 bytes."
  },
  {
   "property": "C35",
   "status": "partial",
   "theorems": [
    "TW.C35_comment",
    "TW.C35_unchanged_partial",
    "TW.C35_unchanged_false",
    "TW.C35_root_false"
   ],
   "note": "Any bodies, any rest, any calls before and behind, any encoding; the items behind are those of the rest read in the state SEEKTOK. White space behind a comment is dropped, and a comment before the root disables the check for the root (witnesses)."
  },
  {
   "property": "C36",
   "status": "partial",
   "theorems": [
    "TW.C36_instruction_partial",
    "TW.C36_question_mark",
    "TW.C36_instruction_false",
    "TW.C36_cdata_partial",
    "TW.C36_cdata_false"
   ],
   "note": "Any bodies, any rest, any calls. False for instructions with a question mark inside (always an error) and for CDATA sections with three closing brackets in sequence (witnesses)."
  },
  {
   "property": "C37",
   "status": "proved",
   "theorems": [
    "TW.C37_state_table",
    "TW.C37_wellformed",
    "TW.C37_lookup",
    "TW.C37_faithful"
   ],
   "note": "Finite table, evaluated by the kernel."
  },
  {
   "property": "C38",
   "status": "proved",
   "theorems": [
    "TW.C38_lifo"
   ],
   "note": "All histories of all calls, including reset and copying; strings below 2^32-16 bytes, allocator grants the memory for the names."
  },
  {
   "property": "C39",
   "status": "partial",
   "theorems": [
    "TW.C39_escaped_false",
    "TW.C39_content_partial",
    "TW.C39_attribute_partial"
   ],
   "note": "False for codes above 0x7FFFFFFF printed as UTF-8 (witness: overlong '<'); holds for all other values, all pairs of encodings: the text read back has no markup."
  },
  {
   "property": "C40",
   "status": "proved",
   "theorems": [
    "TW.C40_rejected"
   ],
   "note": "Any state, reachable or not."
  },
  {
   "property": "C41",
   "status": "partial",
   "theorems": [
    "TW.C41_attribute_value_false",
    "TW.C41_attribute_value_partial"
   ],
   "note": "False: a tag can be opened or closed behind an attribute name (witness); holds for programs that give the values."
  },
  {
   "property": "C42",
   "status": "proved",
   "theorems": [
    "TW.C42_absolute"
   ],
   "note": "Any set of paths, any stream of items (well nested or not) whose headers have the name the scanner gives to them, utf-8 and ISO Latin automata, names of up to 1024 bytes of tag characters."
  },
  {
   "property": "C43",
   "status": "partial",
   "theorems": [
    "TW.C43_descendants_partial",
    "TW.C43_header_false"
   ],
   "note": "Any list of expressions with child, descendant and wildcard steps, any stream of items; reports are counted. False for expressions that begin with a wildcard: they also match the header <?xml (witness)."
  },
  {
   "property": "C44",
   "status": "partial",
   "theorems": [
    "TW.C44_independent_partial",
    "TW.C44_false",
    "TW.C44_empty_false"
   ],
   "note": "Any definitions added anywhere; the reports of types assigned to queries for elements, contents, attributes or close tags, with conditions for attributes, do not change. For attributes of all descendants (`//@name`) this holds as long as nothing asks for contents; otherwise it is false, because a content stops the search (witness). It is false as well for an empty value besides conditions without a value: a step with any value then shares the state of the one with the empty value (witness C44_empty_false); with empty values and no condition without a value it holds."
  },
  {
   "property": "C45",
   "status": "partial",
   "theorems": [
    "TW.C45_doubled_partial",
    "TW.C45_ranges_false"
   ],
   "note": "False: contents are counted twice and ranges of tags are ignored (witness); the theorem says exactly which contents of a root element are reported for any range. For elements and close tags C74 shows that numbers have no effect."
  },
  {
   "property": "C46",
   "status": "proved",
   "theorems": [
    "TW.C46_scopes",
    "TW.C46_scopes_all"
   ],
   "note": "Any automaton, any reachable or unreachable selector state, any balanced items, any number of results taken of each."
  },
  {
   "property": "C47",
   "status": "partial",
   "theorems": [
    "TW.C47_parser_partial",
    "TW.C47_parser_false"
   ],
   "note": "Every expression of steps, wildcards, attribute and index conditions, attribute, content or close tag, with blanks, in every character set, added to any automaton. False for identifiers with '-' or with certain character codes (witness). Alternatives are in C74 and C76. The parser also takes incomplete expressions as '/a/' or '/a@'."
  },
  {
   "property": "C48",
   "status": "partial",
   "theorems": [
    "TW.C48_postfix_partial",
    "TW.C48_postfix_false"
   ],
   "note": "False for close tags with results: postfix increment closes the scope twice (witness); holds for all other items and for close tags without results, any automaton and state."
  },
  {
   "property": "C49",
   "status": "partial",
   "theorems": [
    "TW.C49_what_false",
    "TW.C49_what_partial",
    "TW.C49_what_wrong"
   ],
   "note": "False for six causes, whose texts are given by C49_what_wrong; holds for the others."
  },
  {
   "property": "C50",
   "status": "proved",
   "theorems": [
    "TW.C50_entity_buffer"
   ],
   "note": "Any bytes, any chunks, any order of nextItem, getError, setSource, putInput. UB anywhere in the scanner is excluded, not only in the entity buffer."
  },
  {
   "property": "C51",
   "status": "partial",
   "theorems": [
    "TW.C51_document",
    "TW.C51_returns_partial",
    "TW.C51_plain_partial",
    "TW.C51_comment_false",
    "TW.C51_cut_false"
   ],
   "note": "False for unterminated markup declarations and cut UTF-8 sequences (witnesses); holds for all documents of the grammar (C51_document), for all documents without markup declarations, well formed or not, and whenever the same calls return on the document given in one piece."
  },
  {
   "property": "C52",
   "status": "partial",
   "theorems": [
    "TW.C52_key_word_false",
    "TW.C52_errors_stable_partial"
   ],
   "note": "False for the key words xml and CDATA (witness); holds for all other syntax errors."
  },
  {
   "property": "C53",
   "status": "proved",
   "theorems": [
    "TW.C53_shared",
    "TW.C53_select"
   ],
   "note": "Any automaton, any step with a key."
  },
  {
   "property": "C54",
   "status": "partial",
   "theorems": [
    "TW.C54_header_false",
    "TW.C54_header_partial"
   ],
   "note": "False for names with a double quote and the empty name (witness); holds for all other ASCII names, all output encodings, any chunks, any text behind."
  },
  {
   "property": "C55",
   "status": "partial",
   "theorems": [
    "TW.C55_mask_change_false",
    "TW.C55_same_mask_partial"
   ],
   "note": "False: reading behind the literal CDATA is reached (witness); with the same mask there is no UB."
  },
  {
   "property": "C56",
   "status": "proved",
   "theorems": [
    "TW.C56_no_internal_error"
   ],
   "note": "For documents given in one piece; with C24 for chunks of well formed text."
  },
  {
   "property": "C57",
   "status": "partial",
   "theorems": [
    "TW.C57_failed_push_false",
    "TW.C57_failed_push_partial"
   ],
   "note": "False: m_size is doubled before realloc fails and the next push writes out of bounds (witness); the elements on the stack stay readable (partial)."
  },
  {
   "property": "C58",
   "status": "partial",
   "theorems": [
    "TW.C58_count_false",
    "TW.C58_count_partial"
   ],
   "note": "False: blanks are not counted (witness); exact description of what is counted."
  },
  {
   "property": "C59",
   "status": "partial",
   "theorems": [
    "TW.C59_bom_false"
   ],
   "note": "False for every input that starts with a byte order mark."
  },
  {
   "property": "C60",
   "status": "partial",
   "theorems": [
    "TW.C60_header_text_false",
    "TW.C60_header_text_partial"
   ],
   "note": "False: the literals are decoded with the application charset (witness); holds for the encodings based on ASCII."
  },
  {
   "property": "C61",
   "status": "partial",
   "theorems": [
    "TW.C61_exception_false"
   ],
   "note": "False: the tag is printed before the push throws (witness)."
  },
  {
   "property": "C62",
   "status": "partial",
   "theorems": [
    "TW.C62_null_false",
    "TW.C62_null_partial"
   ],
   "note": "False: cut at the first NUL (witness); exact description of what is printed."
  },
  {
   "property": "C63",
   "status": "proved",
   "theorems": [
    "TW.C63_page_index"
   ],
   "note": "All 32 bit indices, all bytes."
  },
  {
   "property": "C64",
   "status": "partial",
   "theorems": [
    "TW.C64_srciterator",
    "TW.C64_cstring",
    "TW.C64_istream_partial",
    "TW.C64_istream_false"
   ],
   "note": "Chunk and string iterators in full (string iterators up to 2^31 increments). False for the stream iterator, whose difference compares buffer positions only (witness); holds there within a buffer."
  },
  {
   "property": "C65",
   "status": "proved",
   "theorems": [
    "TW.C65_namespaces"
   ],
   "note": "All texts, also malformed ones."
  },
  {
   "property": "C66",
   "status": "proved",
   "theorems": [
    "TW.C66_document",
    "TW.C66_encodings",
    "TW.C66_chunks"
   ],
   "note": "Also for documents that come in chunks (C66_chunks). The grammar is a separate specification (Spec/Grammar.lean). Carriage returns in tokens, user defined entities and stray ampersands are not part of the grammar, they are in C27, C29 and C30."
  },
  {
   "property": "C67",
   "status": "partial",
   "theorems": [
    "TW.C67_ends_false",
    "TW.C67_visits_partial",
    "TW.C67_calls",
    "TW.C67_unread",
    "TW.C67_document_partial",
    "TW.C67_text",
    "TW.C67_end",
    "TW.C67_compare"
   ],
   "note": "Any source and number of rounds, both forms of increment. False for documents with errors: an iterator at an error is not equal to end() and the loop never ends (witness)."
  },
  {
   "property": "C68",
   "status": "partial",
   "theorems": [
    "TW.C68_error_text_false",
    "TW.C68_error_text_partial"
   ],
   "note": "False: error() gives the text of the item read before the error (witness). Proved what it gives at any element visited."
  },
  {
   "property": "C69",
   "status": "partial",
   "theorems": [
    "TW.C69_postfix_false",
    "TW.C69_postfix_partial"
   ],
   "note": "False for the text: the element points into the buffer of the scanner (witness). Type, size, the incremented iterator and what is read instead are proved for any iterator reached."
  },
  {
   "property": "C70",
   "status": "partial",
   "theorems": [
    "TW.C70_assign_false",
    "TW.C70_use_false",
    "TW.C70_default_false",
    "TW.C70_leak_false",
    "TW.C70_released_partial"
   ],
   "note": "False with assignments (all four classes), with default constructed IStreamIterator objects and for copies of buffers on memory of the caller (witnesses). Holds for all programs without these."
  },
  {
   "property": "C71",
   "status": "partial",
   "theorems": [
    "TW.C71_copy_false",
    "TW.C71_copy_partial"
   ],
   "note": "False if both are advanced behind the buffer (witness). Holds, for any order of increments, if one of the two is not advanced or both stay in the buffer."
  },
  {
   "property": "C72",
   "status": "partial",
   "theorems": [
    "TW.C72_failure_false",
    "TW.C72_bytes_partial",
    "TW.C72_failure_partial",
    "TW.C72_again"
   ],
   "note": "Any content, buffer size and number of reads. False for failures that leave errno 0, they are taken for the end (witness); failures that set errno are reported. Another StdInputStream on the same stream continues, or throws if a read came to the end (C72_again). std::istream is modelled by its specification."
  },
  {
   "property": "C73",
   "status": "partial",
   "theorems": [
    "TW.C73_queries_partial",
    "TW.C73_header_attribute_false",
    "TW.C73_descendant_attribute_false"
   ],
   "note": "Any list of queries for elements, contents, attributes and close tags (each of them also of all descendants), with conditions for attributes, any stream of items (with conditions, attributes or close tags: names in tags, values behind names, headers outside of the elements); reports are counted. False for attributes of all descendants together with queries for contents, which stop the search (witness), for attributes without steps (`//@name`), which are also reported in the header (witness), and for queries that begin with a wildcard, which match the header <?xml. Attributes of all descendants without queries for contents, and without steps in streams without header attributes, are covered."
  },
  {
   "property": "C74",
   "status": "partial",
   "theorems": [
    "TW.C74_texts_partial",
    "TW.C74_chunks_partial"
   ],
   "note": "From the bytes of the expressions and the bytes of the document, whole or in chunks, to the reports: parser, automaton, scanner and selector together, with conditions for attributes, close tags and alternatives. Numbers in expressions for elements and close tags have no effect; for numbers in expressions for contents and attributes see C86. Names of any length and values of conditions are arbitrary; what they ask for is what C85_key says. Missing are the expressions for which C43, C47 or C73 is false."
  },
  {
   "property": "C75",
   "status": "partial",
   "theorems": [
    "TW.C75_conditions_partial",
    "TW.C75_order_false",
    "TW.C75_value_false"
   ],
   "note": "False for conditions in another order than the attributes and for values with other characters than those of tags (witnesses). Proved for conditions fulfilled in the order of the attributes (no restriction for steps with one condition): each element selected is reported once, at the item completing the selection, and nothing else."
  },
  {
   "property": "C76",
   "status": "partial",
   "theorems": [
    "TW.C76_alternatives_partial"
   ],
   "note": "For the expressions of C74 and all documents of the grammar, anywhere between other expressions."
  },
  {
   "property": "C77",
   "status": "proved",
   "theorems": [
    "TW.C77_language"
   ],
   "note": "For all texts of characters that are not zero, without the two colons of namespaces (C65), in any character set."
  },
  {
   "property": "C78",
   "status": "partial",
   "theorems": [
    "TW.C78_rejected_partial"
   ],
   "note": "For all rejected texts of characters of the character sets, and the expressions and documents of C74."
  },
  {
   "property": "C79",
   "status": "partial",
   "theorems": [
    "TW.C79_ranges_partial",
    "TW.C79_ranges_false"
   ],
   "note": "False: a range that begins later and ends earlier than the one before moves only the end (witness). Nothing in all the ranges is lost, nothing behind an end is reported; exact if no range narrows both bounds of a range given before."
  },
  {
   "property": "C80",
   "status": "partial",
   "theorems": [
    "TW.C80_fresh_partial",
    "TW.C80_elements_partial",
    "TW.C80_close_partial",
    "TW.C80_copy_false"
   ],
   "note": "False: the context is not copied (three witnesses). A copy made before the first item behaves like the selector for streams without a header, if the expressions begin with tags; a copy inside of an element behaves like it from the close tag of the element on, if no expression waits for the close tag."
  },
  {
   "property": "C81",
   "status": "partial",
   "theorems": [
    "TW.C81_cstring",
    "TW.C81_stream_partial",
    "TW.C81_failing_partial",
    "TW.C81_exceptions",
    "TW.C81_position_false",
    "TW.C81_std_partial"
   ],
   "note": "False for the position of items at the end of a document read from a stream (witness). Items are always the same, for any size of the buffer and pieces, also for standard streams; positions are the same if the character at the position belongs to the document. For C strings a little below 2^32 bytes items and positions are the same. If a read fails the items before are those of the bytes read, and the only exception is FileReadError."
  },
  {
   "property": "C82",
   "status": "partial",
   "theorems": [
    "TW.C82_static_buffer",
    "TW.C82_ostream_false",
    "TW.C82_ostream_partial",
    "TW.C82_buffers",
    "TW.C82_append"
   ],
   "note": "False for an output stream with a field width (witness). With a static buffer or a stream with any bound of what it takes, the calls return the same, and the bytes are those of the string, cut at the bound. With strings in any order the pieces of the calls are the same."
  },
  {
   "property": "C83",
   "status": "partial",
   "theorems": [
    "TW.C83_tree_partial"
   ],
   "note": "Partial where C32 and C74 are: code points the output encoding cannot print, NUL characters, wildcards as first step or attributes without steps with a header, numbers, attributes of descendants together with contents. Types that mix expressions for different parts are not treated (the items of C74 are)."
  },
  {
   "property": "C84",
   "status": "partial",
   "theorems": [
    "TW.C84_queries",
    "TW.C84_unmatched",
    "TW.C84_texts",
    "TW.C84_header_false"
   ],
   "note": "Queries as in C73 (attributes of descendants only without queries for contents; not `/@name` without steps, for which the header is not like an element, see C73_header_attribute_false). That the header has no influence is false (witness: with a header `/*/a` selects also the root element `a`); it holds if no first step is fulfilled by the header, and the scanner's header name `?xml` is no name an expression can ask for, so only wildcards are concerned."
  },
  {
   "property": "C85",
   "status": "partial",
   "theorems": [
    "TW.C85_key",
    "TW.C85_self_partial",
    "TW.C85_cut",
    "TW.C85_long",
    "TW.C85_entity_false",
    "TW.C85_value_false",
    "TW.C85_long_false",
    "TW.C85_queries"
   ],
   "note": "What a text given to the interface asks for is determined for all texts (C85_key). That it asks for itself is false for references, blanks and more than 1024 bytes (witnesses), and proved for texts of name characters up to 1024 bytes. C85_queries: what lists of queries with any names and values select."
  },
  {
   "property": "C86",
   "status": "proved",
   "theorems": [
    "TW.C86_counts",
    "TW.C86_texts",
    "TW.C86_chunks"
   ],
   "note": "Any list of queries with any lists of ranges, any stream of items; reports are counted. C86_texts and C86_chunks: from the bytes of the expressions and of the document. Excluded as in C73 and C74: queries that begin with a wildcard or an attribute in documents with a header, attributes of all descendants together with queries for contents."
  },
  {
   "property": "C87",
   "status": "proved",
   "theorems": [
    "TW.C87_building",
    "TW.C87_selecting",
    "TW.C87_inspecting"
   ],
   "note": "Executions are any sequences of building steps (path elements used in any order, also after exceptions, texts with any result) and selector steps (items of any type, iterators left or destroyed at any time, copies, growth of the automaton meanwhile). Vectors only grow without limit in the model: exhausted memory is not modelled. Reading of names and texts is C88."
  },
  {
   "property": "C88",
   "status": "partial",
   "theorems": [
    "TW.C88_name_partial",
    "TW.C88_name_false",
    "TW.C88_call_partial",
    "TW.C88_text_partial",
    "TW.C88_text_false"
   ],
   "note": "False as stated: a name given to the building interface that ends inside of a character is read beyond its null byte (C88_name_false), and so are the names of all texts if the characters of the automaton have two or four bytes (C88_text_false). Proved for automatons in UTF-8 and ISO Latin: names of whole characters (C88_name_partial, C88_call_partial), and every text, also malformed ones, in every character set (C88_text_partial), up to 2^32 - 17 bytes."
  },
  {
   "property": "C89",
   "status": "proved",
   "theorems": [
    "TW.C89_adds"
   ],
   "note": ""
  },
  {
   "property": "C90",
   "status": "partial",
   "theorems": [
    "TW.C90_texts",
    "TW.C90_counting",
    "TW.C90_ints_partial",
    "TW.C90_overflow"
   ],
   "note": "C90_counting and C90_texts hold without conditions. That no sum leaves the type is false for TO, RANGE and INDEX with the largest int (C90_overflow) and proved for all other calls (C90_ints_partial). The model computes with unbounded integers; by this theorem it describes the code wherever the code is defined."
  },
  {
   "property": "C91",
   "status": "partial",
   "theorems": [
    "TW.C91_partial",
    "TW.C91_lived",
    "TW.C91_other"
   ],
   "note": "False after items other than open tags (C91_other: behind a content the tokens of the enclosing tag are left out), although the remark in the code allows any item. Proved after open tags, for any automaton and history (C91_partial, both directions; C91_lived, the first one also for copies, unfinished iterations and grown automatons). For states with ranges only the first direction is stated."
  },
  {
   "property": "C92",
   "status": "partial",
   "theorems": [
    "TW.C92_header_partial",
    "TW.C92_comment_false",
    "TW.C92_reference_false"
   ],
   "note": "Documents with an XML declaration of the three attributes, in quotes, with ASCII characters and without references in the name of the encoding, and documents that begin with a tag with a letter or an underscore, in any encoding and any chunks. False for references in the name of the encoding (witness) and for all documents that begin with a comment, a document type or a CDATA section: the header parser rejects them (C92_comment_false)."
  },
  {
   "property": "C93",
   "status": "proved",
   "theorems": [
    "TW.C93_inside"
   ],
   "note": "Any automaton and history; states with ranges only in one direction, as they may have come to the end of their range."
  },
  {
   "property": "C94",
   "status": "partial",
   "theorems": [
    "TW.C94_same",
    "TW.C94_partial",
    "TW.C94_value",
    "TW.C94_range",
    "TW.C94_quotes"
   ],
   "note": "False for the operation of the values of an attribute found before, the name of which is never given (C94_value), for ranges, where the stream is written to itself, so that the text has an address before C++11 and the function does not compile since (C94_range), and for names with apostrophes (C94_quotes: two automatons with one text). Proved for all others (C94_partial); C94_same ties the states with source forms to the automatons of the other properties."
  },
  {
   "property": "C95",
   "status": "proved",
   "theorems": [
    "TW.C95_few",
    "TW.C95_chunks",
    "TW.C95_stream",
    "TW.C95_ends"
   ],
   "note": "All three sources. That the end comes is false for unterminated declarations (C25)."
  },
  {
   "property": "C96",
   "status": "proved",
   "theorems": [
    "TW.C96_document",
    "TW.C96_items",
    "TW.C96_ends",
    "TW.C96_chunks",
    "TW.C96_error",
    "TW.C96_null"
   ],
   "note": "The programs are parameterised by the encodings (UTF-8 in the code). Without the null in the chunks the last call returns false (C96_null). The exception has the text of the last item, not that of the error (C96_error)."
  },
  {
   "property": "C97",
   "status": "proved",
   "theorems": [
    "TW.C97_document",
    "TW.C97_error"
   ],
   "note": "The program is parameterised by the encodings (UTF-8 in the code). After an error the exception has the text of the last item (C97_error)."
  },
  {
   "property": "C98",
   "status": "proved",
   "theorems": [
    "TW.C98_ends",
    "TW.C98_text"
   ],
   "note": "C98_ends for arbitrary bytes, C98_text for the characters of a text, also if a null and other bytes follow."
  },
  {
   "property": "C99",
   "status": "proved",
   "theorems": [
    "TW.C99_output",
    "TW.C99_codes"
   ],
   "note": "For the source of one string, all its bytes; positions modulo 2^64 as in the code. A numeric reference without digits has the code 0, which ISO Latin prints as such a reference."
  },
  {
   "property": "C100",
   "status": "partial",
   "theorems": [
    "TW.C100_iterators_partial",
    "TW.C100_loop",
    "TW.C100_post",
    "TW.C100_assigned",
    "TW.C100_copied",
    "TW.C100_kept"
   ],
   "note": "Missing: at a close tag a second destruction of an iterator, or one before the end of the results, is excluded; there the property is false (C100_assigned, C100_copied, C100_kept). The iterator returned by push is assumed to be constructed in place, as C++17 requires."
  },
  {
   "property": "C101",
   "status": "proved",
   "theorems": [
    "TW.C101_clear",
    "TW.C101_again",
    "TW.C101_documents"
   ],
   "note": "For the encodings the documents have to meet the conditions of C92."
  },
  {
   "property": "C102",
   "status": "proved",
   "theorems": [
    "TW.C102_copy"
   ],
   "note": "The texts must be in the encoding of the copying program, and this encoding must be based on ASCII if there is a header or a document type (C60). The document is one printed before (its spelling is the one of the printer)."
  },
  {
   "property": "C103",
   "status": "proved",
   "theorems": [
    "TW.C103_copy"
   ],
   "note": "Documents of the grammar of C66 with at most one document type of the forms the printer has, with end tags named as their start tags, version 1.0 in the header, names without ampersands and texts without carriage returns (which only references can give). The encoding of the copying program must be based on ASCII if there is a header or a document type (C60)."
  },
  {
   "property": "C104",
   "status": "proved",
   "theorems": [
    "TW.C104_order",
    "TW.C104_chunks",
    "TW.C104_tight",
    "TW.C104_twice",
    "TW.C104_tidy"
   ],
   "note": "The order allows more than one immediate end of a tag, since <a/ > gives two (C104_twice). Sessions that the model stops as undefined behaviour or that wait for more input are those without a result."
  },
  {
   "property": "C105",
   "status": "partial",
   "theorems": [
    "TW.C105_any_partial",
    "TW.C105_chunks_partial"
   ],
   "note": "Missing: the expressions meet the conditions of C89; if the input has a header, only expressions that look inside of elements (Inside) are covered, since a header start counts as content (C73)."
  },
  {
   "property": "C106",
   "status": "proved",
   "theorems": [
    "TW.C106_only",
    "TW.C106_chunks",
    "TW.C106_all",
    "TW.C106_chunks_all",
    "TW.C106_exactly",
    "TW.C106_unique",
    "TW.C106_decides"
   ],
   "note": "Both directions for documents in one piece and in chunks (in chunks those UTF-8 documents the lead bytes of which are followed by their continuation bytes, as in C24). C106_decides tells it with one fixed number of calls. The texts of comments, processing instructions, CDATA sections and internal subsets may contain null characters, so the null character at the end is not always the first one."
  },
  {
   "property": "C107",
   "status": "partial",
   "theorems": [
    "TW.C107_exact",
    "TW.C107_wide_partial",
    "TW.C107_wide_false"
   ],
   "note": "Missing: texts that are not empty in UTF-16, UCS-2 and UCS-4 have one null byte behind them, not a null of the encoding (C107_wide_false)."
  },
  {
   "property": "C108",
   "status": "proved",
   "theorems": [
    "TW.C108_hangs",
    "TW.C108_before",
    "TW.C108_only",
    "TW.C108_exactly",
    "TW.C108_chunks",
    "TW.C108_three"
   ],
   "note": "Which of the three holds is told for one piece (C108_three), the documents that run forever also for chunks (C108_chunks). Runs forever after a reported error are not described (C25_bound_partial holds there, too)."
  },
  {
   "property": "C109",
   "status": "proved",
   "theorems": [
    "TW.C109_at",
    "TW.C109_same",
    "TW.C109_found"
   ],
   "note": "Documents in one piece. Errors after the first one are not described."
  },
  {
   "property": "C110",
   "status": "proved",
   "theorems": [
    "TW.C110_sound",
    "TW.C110_unique",
    "TW.C110_exactly",
    "TW.C110_throws"
   ],
   "note": "The texts of the messages are those of the code, also the first one that names the closing bracket where an opening one is expected. C110_unique: the grammar says only one thing about a text."
  },
  {
   "property": "C111",
   "status": "proved",
   "theorems": [
    "TW.C111_call",
    "TW.C111_room",
    "TW.C111_throws",
    "TW.C111_not_undone"
   ],
   "note": "For any printer in a single call, for a new printer in sequences of calls. C111_not_undone is the case in which repeating a call that threw fails: the line break after the end of the root."
  },
  {
   "property": "C112",
   "status": "proved",
   "theorems": [
    "TW.C112_items",
    "TW.C112_chunks",
    "TW.C112_unique",
    "TW.C112_plain",
    "TW.C112_chunks_plain"
   ],
   "note": "In one piece and in chunks, for any masks; texts and positions only for the items asked for (for the others see C113). Behind the first unknown entity see C114. Nothing is said about the positions of items without texts."
  },
  {
   "property": "C113",
   "status": "proved",
   "theorems": [
    "TW.C113_masked",
    "TW.C113_chunks"
   ],
   "note": "In one piece and in chunks. A property of the code that callers have to know: the documentation only says that a masked out item is an event without text, but getItem and getTokenPosition still give the old values."
  },
  {
   "property": "C114",
   "status": "proved",
   "theorems": [
    "TW.C114_document",
    "TW.C114_chunks",
    "TW.C114_first",
    "TW.C114_no_error"
   ],
   "note": "In one piece and in chunks, for any masks. With C106 the scanner is described completely for accepted documents, but for the positions of items without texts and the texts and positions of items not asked for (C113)."
  },
  {
   "property": "C115",
   "status": "partial",
   "theorems": [
    "TW.C115_table",
    "TW.C115_exception",
    "TW.C115_safe",
    "TW.C115_get",
    "TW.C115_bounds_false",
    "TW.C115_get_false",
    "TW.C115_bounds_partial",
    "TW.C115_scanner"
   ],
   "note": "The part of the claim that a built table never leads outside of its array is false: the checks of the targets and of get are off by one (C115_bounds_false, C115_get_false); proved for descriptions whose targets are states of the description (C115_bounds_partial). All else is proved."
  },
  {
   "property": "C116",
   "status": "proved",
   "theorems": [
    "TW.C116_items",
    "TW.C116_chunks",
    "TW.C116_wrong",
    "TW.C116_wrong_chunks",
    "TW.C116_cut"
   ],
   "note": "In one piece and in chunks (in chunks the theorem about wrong texts says nothing of the position of the source). If no error follows, items without text that are told behind the last complete token in front of the place where text and document differ are not covered, nor is the text behind the first unknown entity (for accepted documents see C114)."
  },
  {
   "property": "C117",
   "status": "proved",
   "theorems": [
    "TW.C117_bound",
    "TW.C117_same",
    "TW.C117_chunks",
    "TW.C117_cut"
   ],
   "note": "For texts of at most 2^64 - 16 bytes, as the position is counted in 64 bits. The first text is in one piece, the other one in one piece or in chunks."
  }
 ]
}