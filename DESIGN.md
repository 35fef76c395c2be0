# Formal model of textwolf in Lean 4

## What this is

`/verif/lean` is a Lake project with a hand written Lean 4 model of the header library in
`/repo/include/textwolf` and machine-checked theorems about it.

* `properties.jsonl` lists the properties in English, in terms of the API.
* `MANIFEST.json` lists for each property the theorems and what they cover.
* `seeded/LOG.jsonl` lists the wrong programs the theorems were tested against.
* This file says what is modelled, how each property is proved, what is trusted, and where the
  code does not do what one would expect of it.

## Architecture of the model

* `Verif/Model/*` is the code, function by function, with file and line citations. Bytes,
  characters and sizes are `Nat` with explicit `%` where the C++ type wraps. All functions are
  total and computable.
* Effects: `M σ α := σ → Res α × σ`. A stop keeps the mutated state, as `longjmp` does. `Stop`
  distinguishes
  * `eom`: the `longjmp` of `SrcIterator::operator*` at the end of a chunk,
  * `ub`: undefined behaviour (out of bounds or misaligned access),
  * `throw c`: a C++ exception,
  * `fuel`: the loop bound of the model is exhausted. Loops of the code that are not bounded by a
    constant take a fuel argument. "The call returns r" is "for all large enough fuel the model
    gives r"; "the call never returns" is "for all fuel the model gives `fuel`".
* Source iterators are a type class (`Iter`): raw `char*`, `CStringIterator`, `SrcIterator`,
  `IStreamIterator`.
* Character sets are one data type `Enc` with the functions of each charset.
* `TextScanner` is generic in the iterator. `XMLScanner` is generic in a reader interface (the
  public operations of `TextScanner` it calls), so that it can be run on an abstract reader in
  proofs.
* `Verif/Spec/*` are specifications written without model helpers.
* `Verif/Proofs/*` hold helper lemmas, `Verif/Props/*` the property theorems, with an `example`
  beside each showing that its hypotheses are met in a concrete case.

## Main proof techniques

* Character level. `Proofs/Encode`, `Decode`, `Text`: the text scanner over any iterator behaves
  as an abstract reader of a list of units (a unit is a character and its bytes).
* Simulation. `Proofs/Reader`, `Simulation`: the XML scanner on a text scanner does the same as the
  XML scanner on an abstract reader, for every call, with all fuel.
* Step machine. `Proofs/Machine*`: `nextItem` is the closure of a one step function on the scanner
  that reads a list of characters (`Cfg`). Termination, invariants, error positions, masks and
  copies are induction over the steps.
* Restart. `Proofs/Chunks`: leaving the scanner by `longjmp` at any point and calling it again with
  more input gives the result of the call on the joined input.
* Grammar. `Proofs/Grammar`, `Documents`: from every point of a document of the grammar in
  `Spec/Grammar` the machine gives the items of the rest.
* Refinement. The tag stack (byte level memory) refines a list of strings; the printer refines a
  stack of open tags; the automaton and selector refine sets of paths counted over streams of items.

## Trusted base

* The kernel of Lean 4.33.0 and its three standard axioms `propext`, `Classical.choice`,
  `Quot.sound`. No axiom is added, there is no `sorry`, `native_decide` or `bv_decide`. The table
  below gives the axioms of each theorem as printed by `#print axioms`
  (P = `propext`, C = `Classical.choice`, Q = `Quot.sound`).
* `decide +kernel` is used for whole finite tables (state machine, code pages, ASCII classes) and
  for concrete witnesses and examples. It is evaluated by the kernel.
* The correspondence of the model to the C++ text: the model was written by hand from the text of
  the code. It is not generated from it and the code was never run.
* The C++ semantics assumed by the model: 8 bit bytes; `char` is signed where it is converted to an
  integer (the model uses the value modulo 256 where the code casts to `unsigned char`); `int` and
  `unsigned int` have 32 bit, `size_t` and pointers 64 bit, little endian; `setjmp/longjmp` keeps
  all modified members of objects (they are not automatic variables of the function that called
  `setjmp`); `std::string`, `std::vector`, `std::map` behave as lists and finite maps and do not fail
  to allocate memory, except where a property is about the failure of an allocation.

## What is modelled

| file | model | not modelled |
|------|-------|--------------|
| `char.hpp`, `charset*.hpp`, `codepages.hpp` | `Model/Charset`, `Model/CodePages`, `Model/StaticBuffer` (`Encoder::encode`) | |
| `cstringiterator.hpp`, `sourceiterator.hpp`, `istreamiterator.hpp` | `Model/Iter`, `Model/SharedStream`, `Model/StdStream`, `Model/Ownership` | `std::istream` is modelled by its specification (`Model/StdStream`); elsewhere a stream is a schedule of reads |
| `textscanner.hpp` | `Model/TextScanner` | |
| `staticbuffer.hpp` | `Model/StaticBuffer`, `Model/Ownership` | |
| `exception.hpp` | `Model/Exception` | |
| `xmlhdrparser.hpp` | `Model/HdrParser`, `Model/HdrUse` | |
| `xmltagstack.hpp` | `Model/TagStack`, `Model/Ownership` | |
| `xmlprinter.hpp` | `Model/XMLPrinter`, for any buffer with `push_back`; several buffers in `Model/Output` | |
| `xmlscanner.hpp` | `Model/Stm`, `Model/StmBuild`, `Model/XMLScanner`, `Model/Session`, `Model/Usage`, `Model/ScanIterator` | `curchr_saved` (always 0) |
| `xmlpathautomaton.hpp` | `Model/PathAutomaton`, `Model/PathInspect`, `Model/PathShow`, `Model/Ownership` (keys of states) | element counters are unbounded integers (C90 tells where the code overflows) |
| `xmlpathselect.hpp` | `Model/PathSelect`, `Model/PathInspect`, `Model/ResultIter` | other stack types than vectors; the life time of the string the key of the context points to |
| `xmlpathautomatonparse.hpp` | `Model/PathParse` | |
| `ostreamoutput.hpp` | `Model/Output` | `std::ostream` itself (by its specification); streams that throw are a buffer that throws at a byte (`Throwing`) |
| `examples/*.cpp` | `Model/Examples` | `std::cout` is a list of bytes that takes everything |
| `position.hpp`, `traits.hpp`, `version.hpp`, `charset_interface.hpp` | | no behaviour of their own, or not used by the rest |


## Properties, proofs and axioms

For each property: how it is proved, then the theorems (with the axioms they depend on) and their module under `Verif/Props`.

* **C01** UTF-8 character round trip (proved). UTF8::print then the scanner reads the code back with exactly the bytes printed, for all codes up to 0x7FFFFFFF.
  Arithmetic for each length class. Theorems in Charsets: `C01_utf8_roundtrip` (PCQ).
* **C02** UTF-16 character round trip (both byte orders) (proved). Both byte orders; codes without UTF-16 form are printed as a character reference.
  Arithmetic on the surrogate formulas. Theorems in Charsets: `C02_utf16_roundtrip` (PCQ).
* **C03** UCS-2 and UCS-4 round trip (proved). UCS-2 and UCS-4, both byte orders.
  Arithmetic. Theorems in Charsets: `C03_ucs4_roundtrip` (PCQ), `C03_ucs2_roundtrip` (PCQ).
* **C04** ISO-Latin output is sound (proved). All codes and all nine supported pages.
  Whole tables by kernel evaluation, lifted to all codes. Theorems in Charsets: `C04_isolatin_sound` (PCQ).
* **C05** ISO-Latin repertoire is printed natively (partial). False in the code: some bytes of the high half are decoded but printed as reference; negation with witness, and the bytes for which the round trip holds.
  As C04. Theorems in Charsets: `C05_isolatin_repertoire_false` (P), `C05_tables` (PQ), `C05_isolatin_repertoire_partial` (PCQ).
* **C06** Whole text decoding (proved). Whole texts in all charsets, by induction on the text.
  Induction on the text over the unit lemmas of C01 to C04. Theorems in Charsets: `C06_text_roundtrip` (PCQ).
* **C07** Look-ahead queries never disturb scanning (proved). For every sequence of calls on a TextScanner over a CStringIterator.
  The text scanner refines a reader of units; induction on the calls. Theorems in TextScanner: `C07_lookahead` (PCQ).
* **C08** Malformed UTF-8 is contained (proved). No undefined behaviour on any input, stray bytes and truncated sequences.
  Invariant of the character buffer, case analysis of the first byte. Theorems in Charsets: `C08_utf8_buffer_safe` (PCQ), `C08_utf8_stray` (PCQ), `C08_utf8_bad_sequence` (PCQ).
* **C09** Malformed UTF-16 is flagged (partial). False for a low unit below 0xDC00; the negation and the cases that hold.
  Case analysis of two units. Theorems in Charsets: `C09_utf16_malformed_false` (PQ), `C09_utf16_malformed_partial` (PCQ).
* **C10** Position is the offset of the current character (partial). Holds for CStringIterator and SrcIterator; false for IStreamIterator at the end of the stream.
  Invariant over increments. Theorems in TextScanner: `C10_position_cstring` (PCQ), `C10_position_srciterator` (PCQ), `C10_position_istream_false` (P), `C10_position_istream_partial` (PCQ).
* **C11** Verbatim character copy (partial). False for UTF-16 before the character is loaded; holds otherwise.
  Case analysis of the load state. Theorems in TextScanner: `C11_copychar_false` (P), `C11_copychar_partial` (PCQ).
* **C12** UTF-8 output is shortest form (proved). Shortest form by a specification of UTF-8 that does not mention the code.
  Comparison with a specification of shortest UTF-8. Theorems in Charsets: `C12_utf8_shortest` (PCQ).
* **C13** Numeric entity encoder (proved). Complete description of the effect on memory.
  Evaluation of the digits loop by induction. Theorems in Buffers: `C13_encoder` (PCQ), `C13_entity_denotes_one_code` (PQ).
* **C14** CStringIterator delivers the string then nulls (partial). False for strings of 4 GiB and more; holds below.
  Invariant over increments. Theorems in Iterators: `C14_cstring_false` (PQ), `C14_cstring_partial` (PQ).
* **C15** IStreamIterator is independent of buffering (proved). All read schedules without empty reads; failing reads in a second theorem.
  Induction on the read schedule. Theorems in Iterators: `C15_istream` (PQ), `C15_istream_failure` (PCQ).
* **C16** Chunk feeding of SrcIterator (proved). All sequences of chunks and all numbers of reads.
  Induction on the chunks. Theorems in Iterators: `C16_chunks` (PQ), `C16_last_chunk` (P).
* **C17** StaticBuffer is a bounded byte string (proved). All histories of calls.
  Invariant over histories. Theorems in Buffers: `C17_static_buffer` (PQ).
* **C18** StaticBuffer checked access (partial). False at index size(); holds for all other indices.
  One step. Theorems in Buffers: `C18_checked_access_false` (P), `C18_checked_access_partial` (PQ).
* **C19** Tag stack is a LIFO stack of names (proved). All histories of push, pop, top, empty, clear and copying with byte level memory: out of bounds and misaligned accesses are excluded.
  Refinement of byte memory to a list of strings; invariant over histories. Theorems in TagStack: `C19_stack` (PCQ).
* **C20** Header parser is chunk independent (proved). All byte inputs and all partitions into chunks.
  The parser is a fold over bytes; fold over append. Theorems in HdrParser: `C20_chunks` (PQ).
* **C21** Header parser finds the declared encoding (proved). All white space, attribute orders, quotes, values; all encodings with zero bytes around ASCII characters in any byte order, shown to include those of the library; any chunks; any text behind.
  Induction on each token of the header text; the zero bytes are shown to be ignored. Theorems in HdrParser: `C21_encoding` (PQ), `C21_carriers` (P).
* **C22** Header parser rejects non text by null runs (proved). All inputs and partitions; exception exactly for four NUL bytes in the bytes read; no undefined behaviour; never reads behind the input.
  Invariant of the parser over bytes. Theorems in HdrParser: `C22_no_undefined` (PQ), `C22_four_nulls` (PQ).
* **C23** Header parser copies are faithful (partial). False: encoding and error are not copied (witness); the results of all further calls are the same, and fresh copies are equal (partial).
  Simulation of original and copy over all further calls. Theorems in HdrParser: `C23_copy_false` (P), `C23_calls_partial` (P), `C23_fresh_partial` (P).
* **C24** Scanner is chunk independent (partial). Two-sided: same observations for every partition, UTF-8 under the condition that lead bytes are followed by their continuation bytes; false for truncated UTF-8 sequences inside comments (witness).
  Restart lemma for every function, lifted to sessions. Theorems in Chunks: `C24_chunks_partial` (PCQ), `C24_chunks_safe_partial` (PCQ), `C24_chunks_false` (P).
* **C25** nextItem terminates (partial). False for unterminated comments etc. (witness, for every number of steps); dichotomy with a linear bound, and termination for all documents without markup declarations, well formed or not. Exactly which documents they are is told in C108.
  Measure on steps of the machine; classification of the looping states. Theorems in Scanner: `C25_terminates_false` (PCQ), `C25_bound_partial` (PCQ), `C25_plain_partial` (PCQ).
* **C26** Exit is final (proved). Any source, any masks, any number of calls.
  Invariant: the state EXIT is never left. Theorems in Scanner: `C26_exit_final` (PQ).
* **C27** End of line handling of content and values (proved). All items with text of any program reading a document in one piece, any masks, any charset pair, any entity map.
  Induction on the text, simulation of the token parser by a specification of line ends. Theorems in Text: `C27_line_ends` (PCQ).
* **C28** Character entities are decoded (proved). As C27; any text before and behind the reference, also with malformed references in it.
  As C27, token parser over the digits and names. Theorems in Text: `C28_references` (PCQ).
* **C29** Ampersands that start no reference are kept verbatim (partial). False for malformed hexadecimal references, too large numbers and numbers without digits (witnesses); holds for the rest.
  As C27. Theorems in Text: `C29_hex_false` (PCQ), `C29_large_false` (PCQ), `C29_empty_false` (PCQ), `C29_ampersands_partial` (PCQ).
* **C30** User supplied entities are resolved (partial). False: the map is keyed by pointers and looked up with the address of the buffer of the scanner; exact description of what happens.
  As C28, with addresses. Theorems in Text: `C30_user_entities_false` (PCQ), `C30_example_false` (PCQ), `C30_user_entities_partial` (PCQ).
* **C31** Masking does not change the token structure (proved). Any two programs with the same calls but different masks, any document in one piece, any charset pair and entity map; the exception is stated exactly.
  Simulation of two machines that differ in masks, parse against skip. Theorems in Masks: `C31_masks` (PCQ), `C31_suppressed` (PCQ), `C31_entity_differs` (PCQ).
* **C32** Print and scan round trip (partial). All document trees, with header and document type; names and header strings with characters that the scanner takes for markup are excluded. Missing: codes above 0x7FFFFFFF with UTF-8 output and NUL characters (false, witness), header and document type for application encodings not based on ASCII (C60).
  Induction on the tree: the printed pieces form a document of the grammar of C66, the escapes are read back by C28 lemmas. Theorems in RoundTrip: `C32_roundtrip_false` (PCQ), `C32_roundtrip_partial` (PCQ), `C32_string` (PCQ).
* **C33** Scanner copies are faithful (partial). All copy points after an item (or before the first), any further calls; false only if the entity map has entries for buffer addresses (witness). A copy after an error may differ, too (witness).
  Simulation of original and copy. Theorems in Copies: `C33_copy_partial` (PCQ), `C33_entity_map_false` (PCQ), `C33_after_error` (PCQ).
* **C34** Positions are monotone (partial). All reachable scanners. The position of a token is false for suppressed items and a header after an error (witnesses); documents up to 2^64-16 bytes.
  Invariant of the machine over steps. Theorems in Positions: `C34_position` (PCQ), `C34_token_end` (PCQ), `C34_token_start_partial` (PCQ), `C34_suppressed_false` (PCQ), `C34_header_false` (PCQ).
* **C35** Comments are skipped (partial). Any bodies, any rest, any calls before and behind, any encoding; the items behind are those of the rest read in the state SEEKTOK. White space behind a comment is dropped, and a comment before the root disables the check for the root (witnesses).
  Induction on the body of the comment; simulation of the rest. Theorems in Skips: `C35_comment` (PCQ), `C35_unchanged_partial` (PCQ), `C35_unchanged_false` (PCQ), `C35_root_false` (PCQ).
* **C36** Processing instructions and CDATA sections are skipped up to their terminator (partial). Any bodies, any rest, any calls. False for instructions with a question mark inside (always an error) and for CDATA sections with three closing brackets in sequence (witnesses).
  As C35. Theorems in Skips: `C36_instruction_partial` (PCQ), `C36_question_mark` (PCQ), `C36_instruction_false` (PCQ), `C36_cdata_partial` (PCQ), `C36_cdata_false` (PCQ).
* **C37** State machine is well formed (proved). Finite table, evaluated by the kernel.
  Kernel evaluation of the table builder. Theorems in Table: `C37_state_table` (P), `C37_wellformed` (P), `C37_lookup` (P), `C37_faithful` (PQ).
* **C38** Printer closes tags in LIFO order (proved). All histories of all calls, including reset and copying; strings below 2^32-16 bytes, allocator grants the memory for the names.
  Refinement to a stack of open tags over all call histories. Theorems in Printer: `C38_lifo` (PCQ).
* **C39** Printed values are escaped (partial). False for codes above 0x7FFFFFFF printed as UTF-8 (witness: overlong '<'); holds for all other values, all pairs of encodings: the text read back has no markup.
  Induction on the value; the printed text is decoded by the unit lemmas. Theorems in Printer: `C39_escaped_false` (P), `C39_content_partial` (PCQ), `C39_attribute_partial` (PCQ).
* **C40** Rejected printer calls have no effect (proved). Any state, reachable or not.
  Case analysis of calls and states. Theorems in Printer: `C40_rejected` (PCQ).
* **C41** Printer never emits an attribute without value (partial). False: a tag can be opened or closed behind an attribute name (witness); holds for programs that give the values.
  Invariant over the calls. Theorems in Printer: `C41_attribute_value_false` (PCQ), `C41_attribute_value_partial` (PCQ).
* **C42** Path selection of absolute child paths (proved). Any set of paths, any stream of items (well nested or not) whose headers have the name the scanner gives to them, utf-8 and ISO Latin automata, names of up to 1024 bytes of tag characters.
  Refinement of the selector to sets of ways through the steps; counted over streams. Theorems in Path: `C42_absolute` (PCQ).
* **C43** Path selection with descendant steps (partial). Any list of expressions with child, descendant and wildcard steps, any stream of items; reports are counted. False for expressions that begin with a wildcard: they also match the header <?xml (witness).
  As C42 with descendants. Theorems in Path: `C43_descendants_partial` (PCQ), `C43_header_false` (PCQ).
* **C44** Path expressions are independent (partial). Any definitions added anywhere; the reports of types assigned to queries for elements, contents, attributes or close tags, with conditions for attributes, do not change. For attributes of all descendants (`//@name`) this holds as long as nothing asks for contents; otherwise it is false, because a content stops the search (witness). It is false as well for an empty value besides conditions without a value: a step with any value then shares the state of the one with the empty value (witness C44_empty_false); with empty values and no condition without a value it holds.
  As C43, extension of automata. Theorems in Path: `C44_independent_partial` (PCQ), `C44_false` (PQ), `C44_empty_false` (PQ).
* **C45** Index ranges select the named elements (partial). False: contents are counted twice and ranges of tags are ignored (witness); the theorem says exactly which contents of a root element are reported for any range. For elements and close tags C74 shows that numbers have no effect.
  Exact count by induction over contents. Theorems in PathRanges: `C45_doubled_partial` (PCQ), `C45_ranges_false` (PQ).
* **C46** Selector scopes are restored (proved). Any automaton, any reachable or unreachable selector state, any balanced items, any number of results taken of each.
  Invariant: stack discipline of scopes over balanced items. Theorems in PathScopes: `C46_scopes` (PQ), `C46_scopes_all` (PQ).
* **C47** Path expression parser agrees with the building interface (partial). Every expression of steps, wildcards, attribute and index conditions, attribute, content or close tag, with blanks, in every character set, added to any automaton. False for identifiers with '-' or with certain character codes (witness). Alternatives are in C74 and C76. The parser also takes incomplete expressions as '/a/' or '/a@'.
  Induction on the pieces of the text; the parser makes the calls of the specification. Theorems in PathParse: `C47_parser_partial` (PCQ), `C47_parser_false` (PCQ).
* **C48** Result iteration style does not matter (partial). False for close tags with results: postfix increment closes the scope twice (witness); holds for all other items and for close tags without results, any automaton and state.
  One step analysis of both increments. Theorems in PathScopes: `C48_postfix_partial` (PQ), `C48_postfix_false` (P).
* **C49** Exception texts name their cause (partial). False for six causes, whose texts are given by C49_what_wrong; holds for the others.
  Kernel evaluation of the table. Theorems in Buffers: `C49_what_false` (P), `C49_what_partial` (P), `C49_what_wrong` (P).
* **C50** Entity buffer safety (proved). Any bytes, any chunks, any order of nextItem, getError, setSource, putInput. UB anywhere in the scanner is excluded, not only in the entity buffer.
  Invariant of the scanner over all uses (reader lemmas exclude undefined behaviour). Theorems in Safety: `C50_entity_buffer` (PCQ).
* **C51** No read behind the terminating null (partial). False for unterminated markup declarations and cut UTF-8 sequences (witnesses); holds for all documents of the grammar (C51_document), for all documents without markup declarations, well formed or not, and whenever the same calls return on the document given in one piece.
  Simulation of pointer reading by reading with nulls at the end. Theorems in Examples Pointer: `C51_document` (PCQ), `C51_returns_partial` (PCQ), `C51_plain_partial` (PCQ), `C51_comment_false` (P), `C51_cut_false` (P).
* **C52** Syntax errors are stable (partial). False for the key words xml and CDATA (witness); holds for all other syntax errors.
  Invariant: error states are left by no step. Theorems in Scanner: `C52_key_word_false` (P), `C52_errors_stable_partial` (PCQ).
* **C53** Identical paths share automaton states (proved). Any automaton, any step with a key.
  Case analysis of the chain of links. Theorems in PathScopes: `C53_shared` (PQ), `C53_select` (PQ).
* **C54** Declared header and document agree (partial). False for names with a double quote and the empty name (witness); holds for all other ASCII names, all output encodings, any chunks, any text behind.
  Composition of printer output and C21. Theorems in Printer: `C54_header_false` (PCQ), `C54_header_partial` (PCQ).
* **C55** Mask change after an interruption (partial). False: reading behind the literal CDATA is reached (witness); with the same mask there is no UB.
  As C50 with the same mask. Theorems in Safety: `C55_mask_change_false` (P), `C55_same_mask_partial` (PCQ).
* **C56** No internal errors (proved). For documents given in one piece; with C24 for chunks of well formed text.
  Invariant: the table has a fallback or an error for each reachable state and class. Theorems in Scanner: `C56_no_internal_error` (PCQ).
* **C57** Failed allocation in the tag stack (partial). False: m_size is doubled before realloc fails and the next push writes out of bounds (witness); the elements on the stack stay readable (partial).
  Memory model of C19 with failing allocator. Theorems in TagStack: `C57_failed_push_false` (P), `C57_failed_push_partial` (PCQ).
* **C58** Characters consumed by the header parser (partial). False: blanks are not counted (witness); exact description of what is counted.
  Fold over bytes. Theorems in HdrParser: `C58_count_false` (P), `C58_count_partial` (PQ).
* **C59** Byte order mark (partial). False for every input that starts with a byte order mark.
  Fold over bytes. Theorems in HdrParser: `C59_bom_false` (PQ).
* **C60** Header text independent of application encoding (partial). False: the literals are decoded with the application charset (witness); holds for the encodings based on ASCII.
  Decoding of the literals by unit lemmas. Theorems in Printer: `C60_header_text_false` (PCQ), `C60_header_text_partial` (PCQ).
* **C61** Exceptions leave the output unchanged (partial). False: the tag is printed before the push throws (witness).
  Memory model of C19 with failing allocator. Theorems in Printer: `C61_exception_false` (P).
* **C62** Values are printed completely (partial). False: cut at the first NUL (witness); exact description of what is printed.
  List lemma on the cut at NUL. Theorems in Printer: `C62_null_false` (P), `C62_null_partial` (PCQ).
* **C63** Code page index is checked (proved). All 32 bit indices, all bytes.
  Case analysis of the index. Theorems in Iterators2: `C63_page_index` (PCQ).
* **C64** Iterator differences count increments (partial). Chunk and string iterators in full (string iterators up to 2^31 increments). False for the stream iterator, whose difference compares buffer positions only (witness); holds there within a buffer.
  Invariant over increments. Theorems in Iterators2: `C64_srciterator` (PQ), `C64_cstring` (PQ), `C64_istream_partial` (PQ), `C64_istream_false` (P).
* **C65** Expressions with namespaces are rejected (proved). All texts, also malformed ones.
  Fold over the text. Theorems in PathParse: `C65_namespaces` (PCQ).
* **C66** Items of well formed documents (proved). Also for documents that come in chunks (C66_chunks). The grammar is a separate specification (Spec/Grammar.lean). Carriage returns in tokens, user defined entities and stray ampersands are not part of the grammar, they are in C27, C29 and C30.
  Induction on the document: from every point the machine gives the items of the rest; chained with the unit lemmas for all encodings. Theorems in Grammar Pipeline: `C66_document` (PCQ), `C66_encodings` (PCQ), `C66_chunks` (PCQ).
* **C67** Loop over the iterators of a scanner (partial). Any source and number of rounds, both forms of increment. False for documents with errors: an iterator at an error is not equal to end() and the loop never ends (witness).
  Induction on the rounds of the loop, related to the sequence of calls; C66 for documents of the grammar; C52 for the loop that does not end. Theorems in ScanIterator: `C67_ends_false` (PCQ), `C67_visits_partial` (PCQ), `C67_calls` (PQ), `C67_unread` (P), `C67_document_partial` (PCQ), `C67_text` (PQ), `C67_end` (P), `C67_compare` (P).
* **C68** Error text of an element (partial). False: error() gives the text of the item read before the error (witness). Proved what it gives at any element visited.
  Invariant: the element of an iterator reached is the current one of the scanner. Theorems in ScanIterator: `C68_error_text_false` (PCQ), `C68_error_text_partial` (PQ).
* **C69** Postfix increment of a scanner iterator (partial). False for the text: the element points into the buffer of the scanner (witness). Type, size, the incremented iterator and what is read instead are proved for any iterator reached.
  As C68, one step. Theorems in ScanIterator: `C69_postfix_false` (PCQ), `C69_postfix_partial` (PQ).
* **C70** Memory is released exactly once (partial). False with assignments (all four classes), with default constructed IStreamIterator objects and for copies of buffers on memory of the caller (witnesses). Holds for all programs without these.
  Invariant over programs: each block of the heap has exactly one owner. Theorems in Ownership: `C70_assign_false` (PQ), `C70_use_false` (PQ), `C70_default_false` (PQ), `C70_leak_false` (PQ), `C70_released_partial` (PCQ).
* **C71** Copies of a stream iterator (partial). False if both are advanced behind the buffer (witness). Holds, for any order of increments, if one of the two is not advanced or both stay in the buffer.
  Simulation of one of the two iterators by one that has the stream for itself; C15. Theorems in SharedStream: `C71_copy_false` (P), `C71_copy_partial` (PQ).
* **C72** Iterating on a standard stream (partial). Any content, buffer size and number of reads. False for failures that leave errno 0, they are taken for the end (witness); failures that set errno are reported. Another StdInputStream on the same stream continues, or throws if a read came to the end (C72_again). std::istream is modelled by its specification.
  Induction on the content; C15. Theorems in StdStream: `C72_failure_false` (P), `C72_bytes_partial` (PQ), `C72_failure_partial` (PCQ), `C72_again` (PQ).
* **C73** Contents, attributes and close tags of selected elements (partial). Any list of queries for elements, contents, attributes and close tags (each of them also of all descendants), with conditions for attributes, any stream of items (with conditions, attributes or close tags: names in tags, values behind names, headers outside of the elements); reports are counted. False for attributes of all descendants together with queries for contents, which stop the search (witness), for attributes without steps (`//@name`), which are also reported in the header (witness), and for queries that begin with a wildcard, which match the header <?xml. Attributes of all descendants without queries for contents, and without steps in streams without header attributes, are covered.
  As C43: the tokens of each level are counted by the ways of matching, with the liveness of the tokens that wait for attributes. Without outputs for contents (an invariant of the building interface, `Hush`) nothing stops the tokens that search for attributes of all descendants. Theorems in Path: `C73_queries_partial` (PCQ), `C73_header_attribute_false` (PCQ), `C73_descendant_attribute_false` (PQ).
* **C74** From texts to reports (partial). From the bytes of the expressions and the bytes of the document, whole or in chunks, to the reports: parser, automaton, scanner and selector together, with conditions for attributes, close tags and alternatives. Numbers in expressions for elements and close tags have no effect; for numbers in expressions for contents and attributes see C86. Names of any length and values of conditions are arbitrary; what they ask for is what C85_key says. Missing are the expressions for which C43, C47 or C73 is false.
  C47, C66, C24 and C73 put together: the calls of a text are those of its query, the items of a document come in the order C73 asks for. Theorems in Pipeline: `C74_texts_partial` (PCQ), `C74_chunks_partial` (PCQ).
* **C75** Conditions of path steps (partial). False for conditions in another order than the attributes and for values with other characters than those of tags (witnesses). Proved for conditions fulfilled in the order of the attributes (no restriction for steps with one condition): each element selected is reported once, at the item completing the selection, and nothing else.
  From C73: with different names of attributes the conditions are fulfilled in one way at most. Theorems in Conditions: `C75_conditions_partial` (PCQ), `C75_order_false` (PQ), `C75_value_false` (PQ).
* **C76** Alternatives stand for expressions (partial). For the expressions of C74 and all documents of the grammar, anywhere between other expressions.
  The sets of edges reached from each alternative are those of the expressions without alternatives; both automata answer the same queries (C74). Theorems in Alternatives: `C76_alternatives_partial` (PCQ).
* **C77** Language of the path parser (proved). For all texts of characters that are not zero, without the two colons of namespaces (C65), in any character set.
  `Valid` is the existential closure of the grammar of texts in Spec/PathText.lean. The converse of C47: each function of the parser, run on any text, reads a part of it that is the text of a piece of the grammar, or fails with the position where it stands (`Gets`, Proofs/PathGrammar.lean); the loop over the states collects the pieces, and the pieces accepted by the states are those of an expression (`toks_start`). The position in a rejection is the number of bytes of the characters read before, plus one. Theorems in PathLanguage: `C77_language` (PCQ).
* **C78** Rejected expressions have no effect (partial). For all rejected texts of characters of the character sets, and the expressions and documents of C74.
  Induction over the texts. A rejected text has made calls of the building interface for the pieces before the error; they add states and transitions but no type, so the outputs of the automaton stay the same (`acts_same`). The rest is as in C74. Theorems in PathLanguage: `C78_rejected_partial` (PCQ).
* **C79** Several ranges of an output (partial). False: a range that begins later and ends earlier than the one before moves only the end (witness). Nothing in all the ranges is lost, nothing behind an end is reported; exact if no range narrows both bounds of a range given before.
  Induction over the ranges for the resulting bounds, then the exact count of C45. Theorems in PathRanges: `C79_ranges_partial` (PCQ), `C79_ranges_false` (PQ).
* **C80** Copies of a selector (partial). False: the context is not copied (three witnesses). A copy made before the first item behaves like the selector for streams without a header, if the expressions begin with tags; a copy inside of an element behaves like it from the close tag of the element on, if no expression waits for the close tag.
  Simulation of the copy and the original: the processing of an item does not look at the masks of the scopes, and the masks differ at most in open tags; for copies before a close tag the states after it are equal. Theorems in PathCopies: `C80_fresh_partial` (PQ), `C80_elements_partial` (PCQ), `C80_close_partial` (PQ), `C80_copy_false` (PCQ).
* **C81** The kind of source does not matter (partial). False for the position of items at the end of a document read from a stream (witness). Items are always the same, for any size of the buffer and pieces, also for standard streams; positions are the same if the character at the position belongs to the document. For C strings a little below 2^32 bytes items and positions are the same. If a read fails the items before are those of the bytes read, and the only exception is FileReadError.
  One simulation for all iterators: each is a view of the bytes of the document, and the calls run the same abstract machine on the view; the C string iterator with 32 bit positions is treated with a bound of what a call that returns reads. Theorems in AnySource: `C81_cstring` (PCQ), `C81_stream_partial` (PCQ), `C81_failing_partial` (PCQ), `C81_exceptions` (PCQ), `C81_position_false` (P), `C81_std_partial` (PCQ).
* **C82** The output buffer does not influence printing (partial). False for an output stream with a field width (witness). With a static buffer or a stream with any bound of what it takes, the calls return the same, and the bytes are those of the string, cut at the bound. With strings in any order the pieces of the calls are the same.
  The printer is modelled for any output buffer with push_back. Each function of it commutes with replacing the buffer by one that had other bytes before (`par_call`, by cases over the functions); then the effect of pushing bytes is determined for each kind of buffer by induction; `append` of a stream is the same as pushing (`C82_append`). Theorems in Output Thrown: `C82_static_buffer` (PCQ), `C82_ostream_false` (PCQ), `C82_ostream_partial` (PCQ), `C82_buffers` (PCQ), `C82_append` (PQ).
* **C83** What is selected in a printed tree (partial). Partial where C32 and C74 are: code points the output encoding cannot print, NUL characters, wildcards as first step or attributes without steps with a header, numbers, attributes of descendants together with contents. Types that mix expressions for different parts are not treated (the items of C74 are).
  Composition of C32 and C74, and an induction over the tree that relates the answers at the items (with joined character data) to the parts of the tree; the reports in one tag add up because the number of matches grows with the attributes. Theorems in Selected: `C83_tree_partial` (PCQ).
* **C84** Selecting in a document with a header (partial). Queries as in C73 (attributes of descendants only without queries for contents; not `/@name` without steps, for which the header is not like an element, see C73_header_attribute_false). That the header has no influence is false (witness: with a header `/*/a` selects also the root element `a`); it holds if no first step is fulfilled by the header, and the scanner's header name `?xml` is no name an expression can ask for, so only wildcards are concerned.
  The counting invariant of C73 with the ways outside of the elements as a parameter: an item of the header adds to them what it would add in an element (`Inv.item`); the parameter after the header gives the ways of the steps plus those of the steps behind the first one (`Routing`), and the reports are linear in it. Theorems in PathHeader: `C84_queries` (PCQ), `C84_unmatched` (PCQ), `C84_texts` (PCQ), `C84_header_false` (PCQ).
* **C85** Names and values in the interface for building path automatons (partial). What a text given to the interface asks for is determined for all texts (C85_key). That it asks for itself is false for references, blanks and more than 1024 bytes (witnesses), and proved for texts of name characters up to 1024 bytes. C85_queries: what lists of queries with any names and values select.
  Induction over the characters of the text with the simulation of the text scanner on a C string; the classes of characters are compared with the control character table for all 128 codes and lifted; the consequences are computed from the key; the states of an automaton are determined by keys, so that the reports of queries are those of the queries with the keys. Theorems in KeyName KeySelect: `C85_key` (PCQ), `C85_self_partial` (PCQ), `C85_cut` (PCQ), `C85_long` (PCQ), `C85_entity_false` (PCQ), `C85_value_false` (PCQ), `C85_long_false` (PCQ), `C85_queries` (PCQ).
* **C86** Counting contents for ranges (proved). Any list of queries with any lists of ranges, any stream of items; reports are counted. C86_texts and C86_chunks: from the bytes of the expressions and of the document. Excluded as in C73 and C74: queries that begin with a wildcard or an attribute in documents with a header, attributes of all descendants together with queries for contents.
  Relation between the counters of the tokens and the numbers of contents per level (C37, C45 for one output), for each item of the stream by induction; the calls of ranges commute with all other calls of the building interface, so that the outputs are those of the queries with the ranges of C79. Theorems in PathCounts PathNumbers: `C86_counts` (PCQ), `C86_texts` (PCQ), `C86_chunks` (PCQ).
* **C87** Path automatons and selectors stay inside of their vectors (proved). Executions are any sequences of building steps (path elements used in any order, also after exceptions, texts with any result) and selector steps (items of any type, iterators left or destroyed at any time, copies, growth of the automaton meanwhile). Vectors only grow without limit in the model: exhausted memory is not modelled. Reading of names and texts is C88.
  Invariants: links of states lead forward and indices are those of states, kept by every call and every text; what the levels, the tokens and the follow list of a selector refer to is there, kept by every operation. Termination by a lexicographic measure: levels, tokens to visit, triggers left. Theorems in PathSafe: `C87_building` (PCQ), `C87_selecting` (PCQ), `C87_inspecting` (PCQ).
* **C88** Names and path expressions are read inside of their memory (partial). False as stated: a name given to the building interface that ends inside of a character is read beyond its null byte (C88_name_false), and so are the names of all texts if the characters of the automaton have two or four bytes (C88_text_false). Proved for automatons in UTF-8 and ISO Latin: names of whole characters (C88_name_partial, C88_call_partial), and every text, also malformed ones, in every character set (C88_text_partial), up to 2^32 - 17 bytes.
  The simulation of the text scanner on a C string and on a pointer: in every function of the parser a result and a place are reached that do not depend on the fuel, by induction on the bytes left; behind the text there are only null characters; what is printed for a character is of whole characters, so that all names put together can be read. Theorems in ParseSafe: `C88_name_partial` (PCQ), `C88_name_false` (P), `C88_call_partial` (PCQ), `C88_text_partial` (PCQ), `C88_text_false` (PCQ).
* **C89** Building only adds to a path automaton (proved). 
  The invariant of C87 excludes links to the state 0, so no state counts as empty and every definition goes to a new state; a preorder on automatons that is kept by every call and, by induction over the turns of the parser, every text. Theorems in PathGrow: `C89_adds` (PCQ).
* **C90** The counters of ranges stay in their type (partial). C90_counting and C90_texts hold without conditions. That no sum leaves the type is false for TO, RANGE and INDEX with the largest int (C90_overflow) and proved for all other calls (C90_ints_partial). The model computes with unbounded integers; by this theorem it describes the code wherever the code is defined.
  The same preorder with predicates for the bounds of the new ranges; the numbers of texts are at most eight digits (induction over the digits). For selectors an invariant relating each token to its state, kept by all steps by cases over the functions; growing automatons by C89. Theorems in PathGrow: `C90_texts` (PCQ), `C90_counting` (PCQ), `C90_ints_partial` (PCQ), `C90_overflow` (P).
* **C91** The states listed for inspection are those that the next item can use (partial). False after items other than open tags (C91_other: behind a content the tokens of the enclosing tag are left out), although the remark in the code allows any item. Proved after open tags, for any automaton and history (C91_partial, both directions; C91_lived, the first one also for copies, unfinished iterations and grown automatons). For states with ranges only the first direction is stated.
  A walk through the results keeps an invariant: the tokens of before are there with the same state, with their mask or an empty one, and all triggers come from visited tokens; the positions visited after an open tag are exactly those listed. For the other direction the masks of a scope cover the masks of its tokens (an invariant over all levels), and a token that matches stays as it is until it is visited. Theorems in PathListed: `C91_partial` (PCQ), `C91_lived` (PCQ), `C91_other` (PCQ).
* **C92** The header parser and the scanner agree about the encoding (partial). Documents with an XML declaration of the three attributes, in quotes, with ASCII characters and without references in the name of the encoding, and documents that begin with a tag with a letter or an underscore, in any encoding and any chunks. False for references in the name of the encoding (witness) and for all documents that begin with a comment, a document type or a CDATA section: the header parser rejects them (C92_comment_false).
  The header in the grammar of C66 is rewritten as a declaration of C21, by induction over its attributes; the machine on characters of C21 does the rest. The data consumed by induction over the chunks, then C66_chunks. Theorems in HeaderUse: `C92_header_partial` (PCQ), `C92_comment_false` (PCQ), `C92_reference_false` (PCQ).
* **C93** The types listed for what is inside a tag are those its states have (proved). Any automaton and history; states with ranges only in one direction, as they may have come to the end of their range.
  Two inductions over the results fetched: all tokens added come from the states that follow a token listed whose state fits the name; and a token listed that has no range is visited and its followers are added and not touched anymore. The types listed by induction over the chain of states; the report with the next item from C91. Theorems in PathInside: `C93_inside` (PCQ).
* **C94** The text of an automaton tells its states (partial). False for the operation of the values of an attribute found before, the name of which is never given (C94_value), for ranges, where the stream is written to itself, so that the text has an address before C++11 and the function does not compile since (C94_range), and for names with apostrophes (C94_quotes: two automatons with one text). Proved for all others (C94_partial); C94_same ties the states with source forms to the automatons of the other properties.
  The states with their source forms are a second model of the building functions; a simulation shows that it gives the same automatons, an invariant kept by all calls gives the masks and where the source forms come from. A reader of lines is a specification of its own; that it reads what the code writes by induction over the digits and over the states. Concrete automatons for the negations. Theorems in PathShow: `C94_same` (PCQ), `C94_partial` (PCQ), `C94_value` (PCQ), `C94_range` (PCQ), `C94_quotes` (PCQ).
* **C95** There are never more items than bytes (proved). All three sources. That the end comes is false for unterminated declarations (C25).
  A potential: the bytes left and a weight of the state. Every transition without reading lowers the weight, a table checked for all states, and every item returned lowers the potential; induction over the steps and over the items. The end for texts without declarations from C25. Theorems in Items: `C95_few` (PCQ), `C95_chunks` (PCQ), `C95_stream` (PCQ), `C95_ends` (PCQ).
* **C96** The example programs of the scanner write the items of the document (proved). The programs are parameterised by the encodings (UTF-8 in the code). Without the null in the chunks the last call returns false (C96_null). The exception has the text of the last item, not that of the error (C96_error).
  The loop of the program by induction over the items of a session (C66, C81). For chunks induction over the chunks and over the items: where the machine lacks a character it continues in the next chunk; that the last chunk is never left follows from the characters leading to the terminating null. Theorems in Examples: `C96_document` (PCQ), `C96_items` (PCQ), `C96_ends` (PCQ), `C96_chunks` (PCQ), `C96_error` (PCQ), `C96_null` (PCQ).
* **C97** The example program with the selector (proved). The program is parameterised by the encodings (UTF-8 in the code). After an error the exception has the text of the last item (C97_error).
  The loop of the program by induction over the items of a session and the results of the selector (C66, C81, C73), no results at close tags (C48). The results of an item are determined by how often each type is among them; induction over the items gives the lines. Theorems in ExamplesSelect: `C97_document` (PCQ), `C97_error` (PCQ).
* **C98** The example program with the text scanner (proved). C98_ends for arbitrary bytes, C98_text for the characters of a text, also if a null and other bytes follow.
  The calls of the program are a history of calls of a text scanner (C07); each skip goes on by at least one byte, so that a null is met at the end. The numerals are compared with an inductive definition of hexadecimal numerals. Theorems in ExamplesText: `C98_ends` (PCQ), `C98_text` (PCQ).
* **C99** The output character set only influences the texts of items (proved). For the source of one string, all its bytes; positions modulo 2^64 as in the code. A numeric reference without digits has the code 0, which ISO Latin prints as such a reference.
  A second run with another output character set is followed step by step: an invariant keeps that both texts are written from the same parts, lists of positions and codes, and that the positions are ascending; induction over the steps and over the items, then the refinement of the code (C74, C81). Theorems in Pieces: `C99_output` (PCQ), `C99_codes` (PCQ).
* **C100** Iterators on the results of an item share one walk through the results (partial). Missing: at a close tag a second destruction of an iterator, or one before the end of the results, is excluded; there the property is false (C100_assigned, C100_copied, C100_kept). The iterator returned by push is assumed to be constructed in place, as C++17 requires.
  Simulation of a client with any number of iterators by one list of results not yet seen: the results of an item are a chain of calls of fetch, fetch is idempotent at the end, and the destructor is the identity except at close tags; induction over the operations and over the items. Witnesses show that assigning, copying or keeping an iterator at a close tag closes another element. Theorems in ?: `C100_iterators_partial` (PQ), `C100_loop` (PQ), `C100_post` (PQ), `C100_assigned` (P), `C100_copied` (P), `C100_kept` (P).
* **C101** A cleared header parser is as good as a new one (proved). For the encodings the documents have to meet the conditions of C92.
  The state after clear is the initial one for every state before; induction over the calls and over the documents, and the encodings by C92. Theorems in ?: `C101_clear` (P), `C101_again` (P), `C101_documents` (PCQ).
* **C102** A printed document read and printed again is the same (proved). The texts must be in the encoding of the copying program, and this encoding must be based on ASCII if there is a header or a document type (C60). The document is one printed before (its spelling is the one of the printer).
  The calls of the copying program are those that print a copied tree, where neighbouring texts are joined and the strings are in the new encoding; by induction over the nodes this tree is allowed and printed as the same characters; then C32 and C38. Theorems in ?: `C102_copy` (PCQ).
* **C103** The copy of a document tells the same (proved). Documents of the grammar of C66 with at most one document type of the forms the printer has, with end tags named as their start tags, version 1.0 in the header, names without ampersands and texts without carriage returns (which only references can give). The encoding of the copying program must be based on ASCII if there is a header or a document type (C60).
  The items of a document whose end tags match are those of a tree of characters; by induction over it the copying program makes the calls that print a tree (C32), and what is read of the copy is the same up to the joining of texts, shown by a congruence on lists of items; C66 reads the original, C38 and C32 print and read the copy. Theorems in ?: `C103_copy` (PCQ).
* **C104** The items of any input come in the order of a grammar (proved). The order allows more than one immediate end of a tag, since <a/ > gives two (C104_twice). Sessions that the model stops as undefined behaviour or that wait for more input are those without a result.
  An invariant connects the stage of an automaton over the items with the state of the scanner: it is checked for the whole table of states and character classes, kept by each step of the loop whatever the step does with texts and errors, and lifted by induction over the steps, the calls and the chunks. For each step of the automaton a document shows that it is taken. A document refutes that an immediate end comes only once. Theorems in ?: `C104_order` (PQ), `C104_chunks` (PCQ), `C104_tight` (PCQ), `C104_twice` (PCQ), `C104_tidy` (PQ).
* **C105** The reports of a selector on any input (partial). Missing: the expressions meet the conditions of C89; if the input has a header, only expressions that look inside of elements (Inside) are covered, since a header start counts as content (C73).
  The items of any session are shown to be tidy (C104), and the text of a header start to be made of the letters of xml and a question mark only, by a second invariant over the states of the header; with these two facts the characterisation of the reports of any list of expressions (C89) applies. Theorems in ?: `C105_any_partial` (PCQ), `C105_chunks_partial` (PCQ).
* **C106** Exactly which documents are accepted (proved). Both directions for documents in one piece and in chunks (in chunks those UTF-8 documents the lead bytes of which are followed by their continuation bytes, as in C24). C106_decides tells it with one fixed number of calls. The texts of comments, processing instructions, CDATA sections and internal subsets may contain null characters, so the null character at the end is not always the first one.
  The loop of the scanner is shown to run like an automaton over the ASCII values of the characters (`Auto`), forward and backward: a step of the scanner keeps what is left of a run of the automaton, and an unknown entity only starts the token again. The language of each of the states of the automaton is described with the grammar of Spec/Loose: one direction by induction over the run, with each state and character class taken apart, the other by induction over the document. That all calls return and that there are not more unknown entities than bytes makes the end reachable. Theorems in ?: `C106_only` (PCQ), `C106_chunks` (PCQ), `C106_all` (PCQ), `C106_chunks_all` (PCQ), `C106_exactly` (PCQ), `C106_unique` (PCQ), `C106_decides` (PCQ).
* **C107** The null bytes behind the text of an item (partial). Missing: texts that are not empty in UTF-16, UCS-2 and UCS-4 have one null byte behind them, not a null of the encoding (C107_wide_false).
  The pointer of an iterator that was reached (`Visited`) is that of the text of the scanner or, if this is empty, that of the five null bytes of the empty string. `readMem` gives the bytes or undefined behaviour; the theorem tells for each number of null bytes which of both it is. The false statement is shown with `<a>` read to UTF-16. Theorems in ?: `C107_exact` (PQ), `C107_wide_partial` (PQ), `C107_wide_false` (PCQ).
* **C108** Exactly which documents make a call run forever (proved). Which of the three holds is told for one piece (C108_three), the documents that run forever also for chunks (C108_chunks). Runs forever after a reported error are not described (C25_bound_partial holds there, too).
  Backward: a call that does not return gets lost in one of eight states at the end of the text; from these null characters and the missing end lead to the exit of the automaton of C106, and the steps before carry this back to the beginning of the text (`PassesTo.left`, the same induction as for C106 with something behind the text). Forward: on such a text the run follows the automaton, and the step that reads the last null is one that stays in a lost state, as from the exit nothing more can be read. The number of calls is bounded by a potential for the items and by the characters for the unknown entities. Theorems in ?: `C108_hangs` (PCQ), `C108_before` (PCQ), `C108_only` (PCQ), `C108_exactly` (PCQ), `C108_chunks` (PCQ), `C108_three` (PCQ).
* **C109** The first error is reported at the first character that cannot be continued (proved). Documents in one piece. Errors after the first one are not described.
  Each of the states of the automaton of C106 has a way to its exit, shown with a table of one character for each state; so what is left of a run can be given at the configuration where the error is found, and the backward induction of C106 carries it to the beginning of the text. Forward: on a text that leads to the exit the run follows the automaton as long as characters of the text are left, and a step on a character of it is never an error other than an unknown entity. An error reads no character, so the position is that of the wrong character. Theorems in ?: `C109_at` (PCQ), `C109_same` (PCQ), `C109_found` (PCQ).
* **C110** What the header parser says about any text (proved). The texts of the messages are those of the code, also the first one that names the closing bracket where an opening one is expected. C110_unique: the grammar says only one thing about a text.
  The grammar lists the texts that can be continued (`At`), with the place they end at. Each of them leads the parser to the state of its place (`goes_at`), and there the characters that end the header and the wrong ones are told as they have to be. That every text has a verdict is shown for the grammar alone, by adding one character (`at_snoc`); so the verdict is the one of the parser and is unique. Nulls between the characters are shown to make no difference as long as nothing is thrown. Theorems in ?: `C110_sound` (PCQ), `C110_unique` (PCQ), `C110_exactly` (PCQ), `C110_throws` (PCQ).
* **C111** A printer after an exception of its buffer (proved). For any printer in a single call, for a new printer in sequences of calls. C111_not_undone is the case in which repeating a call that threw fails: the line break after the end of the root.
  A buffer with room for L bytes that throws afterwards is put in place of the string. For each part of the printer the relation `Thr` says that it does the same as with a string while there is room, and else throws with the first L bytes and a statement about the members at this moment; it is closed under sequencing (`Thr.bind`), which gives every call by cases (`thr_call`) and every sequence by induction. Theorems in ?: `C111_call` (PCQ), `C111_room` (PCQ), `C111_throws` (PCQ), `C111_not_undone` (PCQ).
* **C112** The items of any accepted document, with texts and positions (proved). In one piece and in chunks, for any masks; texts and positions only for the items asked for (for the others see C113). Behind the first unknown entity see C114. Nothing is said about the positions of items without texts.
  The automaton of C106 is written once more with the characters of each token and what is behind them as labels. A document of the grammar leads it to the exit with the labels of the grammar, by induction over the document; a step of the scanner that is no error keeps what is left of a run, and the start of the token inside the call gives the position and, with the theorem about the value of a token (C26 to C30), the text. Without ampersands no step enters a reference, so there is no error. Uniqueness: the automaton has no choice and accepts no continuation of an accepted text. Theorems in ?: `C112_items` (PCQ), `C112_chunks` (PCQ), `C112_unique` (PCQ), `C112_plain` (PCQ), `C112_chunks_plain` (PCQ).
* **C113** The text and the position of an item that is not asked for (proved). In one piece and in chunks. A property of the code that callers have to know: the documentation only says that a masked out item is an event without text, but getItem and getTokenPosition still give the old values.
  Invariant over the silent steps of a call: the text and the position are those at the start of the call, or the state reads a token that is asked for or the beginning of a header. Such a state is left only by returning its item. Lifted over the calls by induction. Theorems in ?: `C113_masked` (PCQ), `C113_chunks` (PCQ).
* **C114** Everything a scanner says about an accepted document with references (proved). In one piece and in chunks, for any masks. With C106 the scanner is described completely for accepted documents, but for the positions of items without texts and the texts and positions of items not asked for (C113).
  A relation between the items of the grammar and the results of the calls that consumes them, with a rule for the first unknown entity of a text that puts the rest of the text back. Proved by induction over the calls: from the start of a token the pieces of its text are read one after the other (the theorem about values, C26 to C30) up to its end or to the first unknown entity, where the error leaves the source at the semicolon in the same state. Theorems in ?: `C114_document` (PCQ), `C114_chunks` (PCQ), `C114_first` (PCQ), `C114_no_error` (PCQ).
* **C115** What a description of a state machine builds (partial). The part of the claim that a built table never leads outside of its array is false: the checks of the targets and of get are off by one (C115_bounds_false, C115_get_false); proved for descriptions whose targets are states of the description (C115_bounds_partial). All else is proved.
  Model of the whole array with any integer arguments; the element of a block is described apart from the calls (which transition, which error, which action is named), and induction on the calls of a block, then on the blocks, gives both directions and the reason of each exception; safety by an invariant over all calls, also behind exceptions; the table of the XML scanner by kernel evaluation of its whole construction. Theorems in ?: `C115_table` (PCQ), `C115_exception` (PCQ), `C115_safe` (PCQ), `C115_get` (PCQ), `C115_bounds_false` (PQ), `C115_get_false` (PCQ), `C115_bounds_partial` (PCQ), `C115_scanner` (P).
* **C116** The items at the beginning of a text do not depend on what follows (proved). In one piece and in chunks (in chunks the theorem about wrong texts says nothing of the position of the source). If no error follows, items without text that are told behind the last complete token in front of the place where text and document differ are not covered, nor is the text behind the first unknown entity (for accepted documents see C114).
  The automaton of C112 on the characters read followed by an arbitrary rest of a document. What is behind each token not yet read is a part of the text that is left; so in front of an item whose token ends before the rest begins there is always a character of the text to read, and each step of the scanner follows the automaton. Induction over the steps and the calls as for C112. The beginning for a text with an error is the one of C109. There each item told is returned in front of the place of the error: a step that returns an item without reading a character leads to one of the four states of the text between tags, where steps that read nothing stay and where the only error is the one about an unknown entity. Theorems in ?: `C116_items` (PCQ), `C116_chunks` (PCQ), `C116_wrong` (PCQ), `C116_wrong_chunks` (PCQ), `C116_cut` (PCQ).
* **C117** What a scanner says depends only on the bytes up to the current character (proved). For texts of at most 2^64 - 16 bytes, as the position is counted in 64 bits. The first text is in one piece, the other one in one piece or in chunks.
  A step of the machine looks only at the bytes of the current character: its length, its code and its class are functions of these bytes in each encoding. The offset behind the current character never decreases. So by induction over steps and calls each step of the run is a step on the other text. For the bound: at the end of the text only transitions on null characters go on, and they lead to the final state or to a state from which no call returns (C25). Theorems in ?: `C117_bound` (PCQ), `C117_same` (PCQ), `C117_chunks` (PCQ), `C117_cut` (PCQ).

## Where the code does not do what the property says

Each of these has a theorem with the suffix `_false`: the negation of the property, proved with a
concrete witness. The theorem with the suffix `_partial` of the same property says what holds.

* C05: bytes 0x80 to 0xFF of ISO Latin pages whose code is below 128 + the guard are printed as
  character references; page 3 of the tables is misaligned (bytes 249 to 255 decode as 0).
* C09: a low unit below 0xDC00 behind a high unit is taken for a low surrogate.
* C10, C64: `IStreamIterator` keeps its position at the end of the stream; its difference compares
  positions in the buffer only.
* C11: `copychar` for UTF-16 appends the wrong bytes if the character was not loaded before.
* C14: `CStringIterator` keeps the size as 32 bit number.
* C18: `StaticBuffer::at` and `operator[]` accept the index `size()`.
* C23: the copy constructor of the header parser does not copy the encoding and the error.
* C24: a UTF-8 sequence cut inside of a comment is read differently depending on chunks.
* C25, C51: an unterminated comment, declaration or CDATA section is scanned forever (iterators
  that give null characters at the end) or behind the end (`char*`).
* C29: a malformed hexadecimal reference, a number too large, a reference without digits.
* C30: the entity map has keys of type `const char*` and compares pointers.
* C32, C39: UTF-8 output loses the highest bit of codes above 0x7FFFFFFF; a NUL character in a
  value is printed as `&#x;`.
* C33: copies of a scanner differ if the entity map is in use (C30) and after errors.
* C34: the token position is not set for suppressed items and wrong for a header after an error.
* C35: white space behind a comment is dropped, a comment before the root disables the check for
  the root element.
* C36: an instruction with a question mark inside is an error; `]]]>` does not end a CDATA section
  and `--->` does not end a comment.
* C41: a tag may be opened or closed behind an attribute name without a value.
* C43, C73, C84: expressions that begin with a wildcard match the header `<?xml` like a tag of the name `?xml`, and the rest of them is
  searched for from the root of the document: with a header `/*/a` selects the root element `a`.
* C44, C73: a content stops the search for attributes of descendants, if any expression asks for contents.
* C44: a step with any name or value shares the state of a step with an empty name or value that was defined before it.
* C73: `/@a` and `//@a` are also reported for an attribute `a` of the header.
* C45: ranges count contents twice and ignore tags.
* C79: `RANGE(0,9)` followed by `RANGE(3,5)` is `RANGE(0,5)`: only one of the bounds is changed.
* C47: identifiers with `-` or characters with certain low bytes are rejected. Expressions that end with a separator or with `@` are accepted; `/a/` and `/a@` are the same as `/a`.
* C48: the postfix increment of the selector closes a scope twice.
* C100: any iterator of the selector that is destroyed at a close tag closes an element, also copies, assigned ones and iterators of earlier items.
* C106: what the scanner accepts is much more than XML: `<>`, `</>`, `<a/ >` with two ends of the tag, `<a b=>`, `<a =x>`, tags that do not match, several roots or none, `<!----->-->` as one comment; the exact grammar is in Spec/Loose.
* C107: the text of an item in UTF-16, UCS-2 or UCS-4 ends with one null byte only, so `content()` cannot be read as a text that ends with a null of this encoding; only the size tells the end.
* C108: the scanner runs forever exactly on the documents that are cut off in a comment, a processing instruction, a CDATA section or an internal subset (with nothing wrong before); a document cut off elsewhere is reported.
* C49: six exception causes have no text of their own.
* C52: an error in the key words `xml` and `CDATA` is not stable.
* C54: an encoding name with a double quote, or the empty one, is not read back.
* C114: behind an unknown entity the rest of the token, from the semicolon on, is delivered as an item of its own; the text of the error item is the text before the reference.
* C115: the builder of state machines accepts the target 64 and `get` accepts the number behind the last state; with 64 states this leads behind the array (xmlscanner.hpp:63,85,100,139). The table of the XML scanner has 48 states and no such target.
* C113: an item that is masked out keeps the text and the position of the item before it; it does not have an empty text.
* C55: changing the mask in the middle of a call makes the scanner read behind a literal.
* C57: a failed growth of the tag stack leaves a wrong capacity.
* C58: `charsConsumed` does not count blanks.
* C59: a header behind a byte order mark is not recognised.
* C60: literals of the printer are decoded in the character set of the application.
* C61: a tag is printed although its name could not be kept.
* C62: a value is cut at the first NUL character.
* C67: a loop from `begin()` to `end()` does not end on a document with an error.
* C68: `Element::error()` gives the text of the item, not of the error (the examples of the library
  print it as error).
* C69: the iterator returned by the postfix increment shows the text of the next item.
* C70: the classes that own memory have no assignment operator: assigning an `XMLPrinter`, or a
  source of the type `IStreamIterator` with `setSource`, releases memory twice. An
  `IStreamIterator` made by the default constructor releases a pointer that is not initialised.
* C71: a copy of an `IStreamIterator` takes the bytes of the stream away from the original.
* C72: a stream that fails without setting `errno` ends silently.
* C75: conditions are fulfilled only in the order of the attributes: `/a[@b='x'][@c='y']` does not select
  `<a c='y' b='x'>`. A value in a condition is cut at the first character that is not allowed in tags:
  `/a[@b='c d']` selects `<a b='c'>` and not `<a b='c d'>`.
* C80: the copy constructor of the selector does not copy the context: a copy made inside of an element
  takes the elements in it for root elements.
* C81: the end of a document is reported at another position if it is read with an `IStreamIterator`.
* C85: the building interface promises names with references for higher characters, but references in names are
  never resolved: `parseStaticNumericEntityValue` is called with the reader on the `&` and looks for a `#` there, so each `&` is
  taken as the character 0 and the rest of the reference as letters. Values of attributes are cut at the first blank; names and
  values are cut at 1024 bytes.
* C88: a name given to the building interface that ends inside of a UTF-8 character is read beyond its terminating null byte.
  With an automaton in a character set of two or four bytes per character every name of an expression text is read beyond the memory
  of the string it is kept in, because only one null byte is behind it.
* C90: `TO`, `RANGE` and `INDEX` with the largest `int` overflow.
* C91: after an item that is no open tag `getTokenTypeMatchingStates` starts behind the tokens the next item begins with, so states that
  match it are left out.
* C92: the header parser rejects every document that begins with a comment, a document type declaration or a CDATA section instead
  of an XML declaration or a tag, and reports references in the name of the encoding as they are written.
* C94: `seekopName` never gives the name `ThisAttributeValue`, because the test for `AttributeValue` comes first. `State::tostring` writes
  the stream to itself in ranges; this prints an address before C++11 and does not compile since. Names are written with everything behind
  the part the key is made of, without escapes.
* C96: the example programs write `xml error: ` and the text of the last item, because `error()` gives the content (C68). The chunkwise
  example needs the terminating null in the last chunk; without it the last call returns `false`, and a caller asks for another chunk.

Further observations, part of the model or of examples but of no property of their own:

* All constructors of `XMLScanner` use `OutputCharSet()`; an ISO Latin output page other than the
  default cannot be chosen.
* `<a/ >` gives `CloseTagIm` repeatedly (state `TAGCLIM` has a loop).
* The text of CDATA sections is dropped. White space directly behind a tag is part of the content.
* Numeric references have at most 15 digits. `&nbsp;` is a blank (32).
* `a=>` is accepted as attribute without value. Character 5 is of no class.
* `getPosition` wraps if `setSource` is called inside of a character.
* A header attribute name is appended to the old item.
* `selectTag("*")` asks for the name `*`, which no element has.
* A path expression with an error leaves the steps before the error in the automaton.
* An `OstreamOutput` writes with the formatted `operator<<`; a field width set on the stream fills up
  the first character printed.

## Mutation tests

`seeded/LOG.jsonl` has one line for each wrong program. The model was edited in a copy and the modules
that depend on the edit were compiled again. A theorem is listed as failed if its proof, or the proof of
a lemma it uses, is not accepted for the edited model. What this shows is limited:

* Because of the shared lemmas a failed theorem does not always state the broken claim itself: a proof
  that is not accepted any more does not show that the theorem is false.
* For about two thirds of the entries, most of them edits made by a program, no claim was written down
  before the test. The claim given there is the title of the properties whose theorems failed, so it says
  nothing more than the list of failed theorems. The note of these entries says so.
* Most runs ended after the first modules in which theorems of properties failed. Theorems that would
  have failed later are not listed.
* Where a claim was written down before, the test is that a theorem of its property is among the failed
  ones. When none was, the theorems listed as tightened were added or strengthened. For q3, q10 and a9
  the claim is caught by theorems of other properties only; their notes say what was observed.

If the check of a module ended without a result (out of memory), its theorems are listed only if they
were checked again and seen to fail; the note says so. Until f8a44dc the log listed all theorems of
such a module, which was too much; the entries were corrected.
