{"id": "C01", "title": "UTF-8 character round trip", "statement": "Printing a character code 0..0x7FFFFFFF with the UTF-8 charset and scanning the produced bytes yields the same code, consumes exactly the produced bytes, and does so whatever bytes follow.", "quantifier": "for every character code up to 0x7FFFFFFF and every following byte sequence", "why_tests_cant": "2^31 codes times arbitrary continuations; tests sample a few dozen codes.", "anchors": ["include/textwolf/charset_utf8.hpp: UTF8::print, UTF8::value, UTF8::skip, UTF8::fetchbytes", "include/textwolf/textscanner.hpp: TextScanner"]}
{"id": "C02", "title": "UTF-16 character round trip (both byte orders)", "statement": "Printing a code up to 0x10FFFF that is not a high surrogate (D800-DBFF) with UTF16LE or UTF16BE and scanning the bytes yields the same code and consumes exactly those bytes; every other code is printed as a numeric character entity denoting that code.", "quantifier": "for every 32 bit code, both byte orders, every following byte sequence", "why_tests_cant": "Surrogate arithmetic has a million cases and unsigned wrap-around corner cases outside the range.", "anchors": ["include/textwolf/charset_utf16.hpp: UTF16::print, UTF16::value_impl, UTF16::size, UTF16::skip"]}
{"id": "C03", "title": "UCS-2 and UCS-4 round trip", "statement": "UCS-4 print followed by scan is the identity on all 32 bit codes; UCS-2 print followed by scan is the identity up to 0xFFFF and prints a numeric entity above, in both byte orders.", "quantifier": "for every 32 bit code, both byte orders, every following byte sequence", "why_tests_cant": "2^32 codes.", "anchors": ["include/textwolf/charset_ucs.hpp: UCS2, UCS4"]}
{"id": "C04", "title": "ISO-Latin output is sound", "statement": "For each of the nine ISO-Latin code pages, if a character is printed as a single byte then scanning that byte with the same code page gives the same character; otherwise the output is the numeric hexadecimal entity of that character.", "quantifier": "for every code page 1..9 and every nonzero 32 bit character code", "why_tests_cant": "Hand written inverse tables; nine pages times 2^32 characters.", "anchors": ["include/textwolf/charset_isolatin.hpp: IsoLatin::print, IsoLatin::value", "include/textwolf/codepages.hpp: IsoLatinCodePage::invcode, ucharcode"]}
{"id": "C05", "title": "ISO-Latin repertoire is printed natively", "statement": "Every character of a code page's repertoire (every character some byte of the page decodes to) is printed as a single byte of that page.", "quantifier": "for every code page 1..9 and every byte", "why_tests_cant": "Needs all bytes of all pages; the test suite only uses page 1.", "anchors": ["include/textwolf/codepages.hpp: IsoLatinCodePage::invcode (overlay map guard), codePage, invcodePage"]}
{"id": "C06", "title": "Whole text decoding", "statement": "Scanning the concatenation of the printed characters of a string of representable non-null codes with the same charset yields exactly that string followed by the end of text marker, for UTF-8, UTF-16, UCS-2, UCS-4 and ISO-Latin.", "quantifier": "for every charset and every finite string of codes representable in it", "why_tests_cant": "Unbounded strings; alignment of one character depends on all previous ones.", "anchors": ["include/textwolf/textscanner.hpp: TextScanner::chr, TextScanner::skip, TextScanner::operator++"]}
{"id": "C07", "title": "Look-ahead queries never disturb scanning", "statement": "Any interleaving and repetition of the queries chr(), ascii(), control() between two skip() calls leaves all query results and the reported position unchanged; results depend only on how often skip() was called.", "quantifier": "for every byte input (well formed or not), every charset and every finite history of calls", "why_tests_cant": "Unbounded call histories; partial multi byte reads are hidden state.", "anchors": ["include/textwolf/textscanner.hpp: chr, getcur, control, ascii, skip, getPosition"]}
{"id": "C08", "title": "Malformed UTF-8 is contained", "statement": "Whatever bytes are scanned as UTF-8, the scanner never stores more than the 8 bytes its character buffer holds; a stray continuation byte yields the error code 0x7FFFFFFF and consumes one byte; a multi byte sequence with a bad continuation byte yields 0x7FFFFFFF and never an ASCII or control character.", "quantifier": "for every byte sequence", "why_tests_cant": "Memory safety over arbitrary garbage cannot be sampled.", "anchors": ["include/textwolf/charset_utf8.hpp: UTF8::fetchbytes, UTF8::value, UTF8::asciichar"]}
{"id": "C09", "title": "Malformed UTF-16 is flagged", "statement": "A high surrogate unit that is not followed by a low surrogate unit (DC00-DFFF) yields the error code 0xFFFF.", "quantifier": "for every pair of 16 bit units, both byte orders", "why_tests_cant": "2^26 pairs; the boundary on the low side is easy to miss.", "anchors": ["include/textwolf/charset_utf16.hpp: UTF16::value_impl"]}
{"id": "C10", "title": "Position is the offset of the current character", "statement": "getPosition() of a scanner equals the byte offset at which the current character starts, irrespective of how many bytes of it have already been fetched.", "quantifier": "for every input, charset and call history", "why_tests_cant": "Depends on hidden read-ahead state in every combination.", "anchors": ["include/textwolf/textscanner.hpp: getPosition", "include/textwolf/traits.hpp", "include/textwolf/cstringiterator.hpp: CStringIterator::position"]}
{"id": "C11", "title": "Verbatim character copy", "statement": "copychar() into the same charset appends exactly the source bytes of the current character, and into another charset appends that charset's encoding of the decoded character.", "quantifier": "for every charset pair, every input and every call history before the copy", "why_tests_cant": "The result depends on which queries were made before.", "anchors": ["include/textwolf/textscanner.hpp: copychar", "include/textwolf/charset_utf16.hpp: UTF16::fetchbytes"]}
{"id": "C12", "title": "UTF-8 output is shortest form", "statement": "The bytes printed for a code up to 0x7FFFFFFF are the unique shortest RFC 2279 encoding: correct lead byte, continuation bytes 10xxxxxx, minimal length.", "quantifier": "for every code up to 0x7FFFFFFF", "why_tests_cant": "2^31 codes and six length classes.", "anchors": ["include/textwolf/charset_utf8.hpp: UTF8::print"]}
{"id": "C13", "title": "Numeric entity encoder", "statement": "Encoder::encode writes `&#x`, the hexadecimal digits of the code and `;` plus a terminating null, never writes outside the given buffer, reports failure exactly if that does not fit, and the text read back as a character entity denotes the same code.", "quantifier": "for every 32 bit code and every buffer size", "why_tests_cant": "2^32 codes times buffer sizes.", "anchors": ["include/textwolf/charset_interface.hpp: Encoder::encode", "include/textwolf/staticbuffer.hpp"]}
{"id": "C14", "title": "CStringIterator delivers the string then nulls", "statement": "Dereferencing after k increments gives byte k of the string, or null from the end on, and position() is k, as long as fewer than 2^32 increments were done.", "quantifier": "for every string and every number of increments below 2^32", "why_tests_cant": "Exhaustive over strings and counts; wrap-around after 4 GiB is untestable in practice.", "anchors": ["include/textwolf/cstringiterator.hpp: CStringIterator"]}
{"id": "C15", "title": "IStreamIterator is independent of buffering", "statement": "For any stream, any buffer size and any pattern of short reads, the iterator delivers exactly the bytes of the stream in order and then nulls, and position() counts the bytes passed.", "quantifier": "for every stream content, buffer size, read schedule and number of increments", "why_tests_cant": "Read schedules are chosen by the operating system.", "anchors": ["include/textwolf/istreamiterator.hpp: IStreamIterator::operator*, operator++, fillbuf, position"]}
{"id": "C16", "title": "Chunk feeding of SrcIterator", "statement": "Feeding a sequence of chunks with putInput whenever the iterator signals end of message delivers the concatenation of the chunks, signals end exactly when a byte beyond the fed data is requested, and position() is the absolute offset.", "quantifier": "for every sequence of chunks (including empty ones) and every number of reads", "why_tests_cant": "Chunk boundaries are a schedule chosen by the environment.", "anchors": ["include/textwolf/sourceiterator.hpp: SrcIterator::operator*, operator++, putInput, position"]}
{"id": "C17", "title": "StaticBuffer is a bounded byte string", "statement": "After any history of push_back, append, resize and clear, the buffer never wrote outside its memory, holds exactly what an unbounded string truncated at the capacity would hold, and overflow() tells whether an append was truncated since the last clear.", "quantifier": "for every capacity and every finite history of operations", "why_tests_cant": "Unbounded histories around the capacity boundary.", "anchors": ["include/textwolf/staticbuffer.hpp: push_back, append, resize, clear, overflow"]}
{"id": "C18", "title": "StaticBuffer checked access", "statement": "operator[] and at() raise an exception for every index that is not below size(), and never read outside the buffer memory.", "quantifier": "for every reachable buffer and every index", "why_tests_cant": "Off-by-one at exactly full buffers.", "anchors": ["include/textwolf/staticbuffer.hpp: operator[], at"]}
{"id": "C19", "title": "Tag stack is a LIFO stack of names", "statement": "Any history of push, pop, top, empty, clear on the tag stack returns what an ordinary stack of byte strings would return, for names of any length including empty names and names with null bytes, with all internal size words stored aligned and inside the allocated block.", "quantifier": "for every finite history of operations and names", "why_tests_cant": "Memory layout with growth and padding; unbounded histories.", "anchors": ["include/textwolf/xmltagstack.hpp: TagStack"]}
{"id": "C20", "title": "Header parser is chunk independent", "statement": "XmlHdrParser gives the same outcome (need more, done, failure, exception), encoding, error and consumed count for every way of splitting the input into chunks.", "quantifier": "for every byte input and every partition into chunks", "why_tests_cant": "Exponentially many partitions.", "anchors": ["include/textwolf/xmlhdrparser.hpp: XmlHdrParser::putInput, parse, nextChar"]}
{"id": "C21", "title": "Header parser finds the declared encoding", "statement": "For a well formed XML declaration with version, encoding and standalone in ASCII, ISO-Latin, UTF-8, UTF-16, UCS-2 or UCS-4 in any byte order, the parser reports exactly the declared encoding name.", "quantifier": "for every encoding name, quote style, spacing and carrier encoding", "why_tests_cant": "Names and spacing unbounded, interaction with null bytes of wide encodings.", "anchors": ["include/textwolf/xmlhdrparser.hpp: XmlHdrParser::parse, getEncoding"]}
{"id": "C22", "title": "Header parser rejects non text by null runs", "statement": "The header parser raises IllegalXmlHeader exactly when four null bytes in a row are read, also if the run is spread over several chunks, and never reads outside the provided input.", "quantifier": "for every byte input and partition", "why_tests_cant": "Run may straddle chunk borders in every way.", "anchors": ["include/textwolf/xmlhdrparser.hpp: nextChar"]}
{"id": "C23", "title": "Header parser copies are faithful", "statement": "A copy of a header parser reports the same encoding and last error and behaves the same as the original on all further input.", "quantifier": "for every parser state and continuation", "why_tests_cant": "Copy in any intermediate state.", "anchors": ["include/textwolf/xmlhdrparser.hpp: XmlHdrParser(const XmlHdrParser&)"]}
{"id": "C24", "title": "Scanner is chunk independent", "statement": "Feeding an XML document in arbitrary chunks through SrcIterator (repeating nextItem() after each end of message signal) gives the same sequence of element types, item strings, errors and token positions as feeding it in one piece.", "quantifier": "for every document, every charset, every output charset and every partition into chunks", "why_tests_cant": "A chunk may end in the middle of a character, an entity, a token, or a keyword; exponentially many partitions.", "anchors": ["include/textwolf/xmlscanner.hpp: nextItem, parseToken, parseTokenRecover, parseEntity, expectStr, skipToken", "include/textwolf/sourceiterator.hpp"]}
{"id": "C25", "title": "nextItem terminates", "statement": "A call of nextItem() on a finite input always returns.", "quantifier": "for every finite input and every scanner state reachable on it", "why_tests_cant": "Termination over all inputs.", "anchors": ["include/textwolf/xmlscanner.hpp: nextItem, Statemachine, skipToken, parseToken"]}
{"id": "C26", "title": "Exit is final", "statement": "Once nextItem() has returned Exit, every further call returns Exit with an empty item and consumes no input.", "quantifier": "for every input, every number of further calls and every mask", "why_tests_cant": "Unbounded number of calls.", "anchors": ["include/textwolf/xmlscanner.hpp: nextItem, EXIT state"]}
{"id": "C27", "title": "End of line handling of content and values", "statement": "Content text and quoted attribute values without entities are delivered with every CR LF pair and every lone CR replaced by a single LF and all other characters unchanged.", "quantifier": "for every text and every charset", "why_tests_cant": "Unbounded texts, adjacency patterns across chunk borders.", "anchors": ["include/textwolf/xmlscanner.hpp: parseToken (eolnState)"]}
{"id": "C28", "title": "Character entities are decoded", "statement": "In content and attribute values the predefined entities and the decimal and hexadecimal character references up to 15 digits with value at most 0xFFFFFFFF are replaced by the denoted character, in any text context.", "quantifier": "for every reference and every surrounding text", "why_tests_cant": "2^32 values times spellings times contexts.", "anchors": ["include/textwolf/xmlscanner.hpp: parseEntity, parseNumericEntity, parseNumericBaseEntity, parseNamedEntity, pushPredefinedEntity"]}
{"id": "C29", "title": "Ampersands that start no reference are kept verbatim", "statement": "Text with an ampersand that does not start a reference is delivered unchanged.", "quantifier": "for every text around the ampersand", "why_tests_cant": "Many failure points inside the reference parser, each with its own reconstruction of the text.", "anchors": ["include/textwolf/xmlscanner.hpp: fallbackEntity, parseNumericBaseEntity, parseNamedEntity"]}
{"id": "C30", "title": "User supplied entities are resolved", "statement": "A named entity defined in the entity map given to the scanner is replaced by its character.", "quantifier": "for every entity name and map", "why_tests_cant": "Depends on key identity, not on sample values.", "anchors": ["include/textwolf/xmlscanner.hpp: pushEntity, EntityMap"]}
{"id": "C31", "title": "Masking does not change the token structure", "statement": "Calling nextItem with a mask that suppresses element types yields the same sequence of element types and the same end positions as calling it without, unless an undefined entity occurs in a suppressed item.", "quantifier": "for every document, every mask and every charset", "why_tests_cant": "Two different code paths must consume identical input on all texts.", "anchors": ["include/textwolf/xmlscanner.hpp: nextItem(mask), skipToken, parseToken"]}
{"id": "C32", "title": "Print and scan round trip", "statement": "Printing a document with XMLPrinter and scanning the output with XMLScanner yields the printed sequence of tags, attributes and values in every charset (content free of carriage returns).", "quantifier": "for every document tree, all names of tag characters, all values, every charset", "why_tests_cant": "Unbounded trees and values; escaping must match unescaping exactly.", "anchors": ["include/textwolf/xmlprinter.hpp: XMLPrinter", "include/textwolf/xmlscanner.hpp: XMLScanner"]}
{"id": "C33", "title": "Scanner copies are faithful", "statement": "A copy of a scanner taken between two successful nextItem calls continues exactly like the original.", "quantifier": "for every document and every copy point", "why_tests_cant": "Every intermediate state of the automaton.", "anchors": ["include/textwolf/xmlscanner.hpp: XMLScanner(const XMLScanner&)"]}
{"id": "C34", "title": "Positions are monotone", "statement": "The input position never decreases, getTokenPosition() of an item is at most the position after it and never before the position where the call started.", "quantifier": "for every document, mask and number of calls", "why_tests_cant": "All histories.", "anchors": ["include/textwolf/xmlscanner.hpp: getTokenPosition, getPosition, nextItem"]}
{"id": "C35", "title": "Comments are skipped", "statement": "A comment <!-- ... --> whose body contains no double dash and does not end in a dash yields no item and does not change the items after it.", "quantifier": "for every comment body and every continuation", "why_tests_cant": "Unbounded bodies.", "anchors": ["include/textwolf/xmlscanner.hpp: COMDASH2, COMSEEKE, COMENDD2, COMENDCL"]}
{"id": "C36", "title": "Processing instructions and CDATA sections are skipped up to their terminator", "statement": "A processing instruction ends at the first ?> and a CDATA section at the first ]]>.", "quantifier": "for every body", "why_tests_cant": "Overlapping terminator prefixes.", "anchors": ["include/textwolf/xmlscanner.hpp: PITAG, PITAGEND, CDATA1, CDATA2, CDATA3"]}
{"id": "C37", "title": "State machine is well formed", "statement": "The construction of the scanner's state table raises no exception, defines each state exactly once at its own index, and all transition and fallback targets are defined states.", "quantifier": "for every state and every control character class", "why_tests_cant": "Whole-table fact; exceptions are only raised at first use.", "anchors": ["include/textwolf/xmlscanner.hpp: ScannerStatemachine, Statemachine"]}
{"id": "C38", "title": "Printer closes tags in LIFO order", "statement": "For every history of printer calls, each successful close prints the name of the most recently opened unclosed tag, or the immediate close form directly after the open tag, and close fails exactly when no tag is open (or an attribute value is pending, or the open tag's name is empty).", "quantifier": "for every finite history of printer calls", "why_tests_cant": "Unbounded nesting.", "anchors": ["include/textwolf/xmlprinter.hpp: printOpenTag, printCloseTag", "include/textwolf/xmltagstack.hpp"]}
{"id": "C39", "title": "Printed values are escaped", "statement": "Printed content never contains a raw < or > and & only as start of a reference; printed attribute values in addition contain no raw quote and no raw tab or line break between their delimiters.", "quantifier": "for every value string and every charset", "why_tests_cant": "Every character at every position.", "anchors": ["include/textwolf/xmlprinter.hpp: printToBufferContent, printToBufferAttributeValue, printToBufferSubstChr"]}
{"id": "C40", "title": "Rejected printer calls have no effect", "statement": "A printer call that returns false leaves the output buffer, the tag stack and the printer state unchanged.", "quantifier": "for every printer state and call", "why_tests_cant": "All states reachable by histories.", "anchors": ["include/textwolf/xmlprinter.hpp: printHeader, printDoctype, printOpenTag, printAttribute, printValue, printCloseTag"]}
{"id": "C41", "title": "Printer never emits an attribute without value", "statement": "Whatever the call history, every attribute name printed is followed by a quoted value.", "quantifier": "for every finite history of printer calls", "why_tests_cant": "Histories chosen by the caller.", "anchors": ["include/textwolf/xmlprinter.hpp: exitTagContext, printOpenTag, printAttribute"]}
{"id": "C42", "title": "Path selection of absolute child paths", "statement": "A path /t1/t2/.../tn assigned to a type is reported exactly at the open tags whose path of tag names from the root is t1,...,tn, once each.", "quantifier": "for every path, every set of such paths and every well nested stream of items", "why_tests_cant": "Unbounded documents and paths.", "anchors": ["include/textwolf/xmlpathselect.hpp: XMLPathSelect", "include/textwolf/xmlpathautomaton.hpp: XMLPathSelectAutomaton"]}
{"id": "C43", "title": "Path selection with descendant steps", "statement": "With descendant (//) and wildcard steps a path is reported at an open tag as often as the steps can be matched against the tag names from the root.", "quantifier": "for every list of path expressions and every well nested stream", "why_tests_cant": "Combinatorial number of ways to match.", "anchors": ["include/textwolf/xmlpathselect.hpp: match, fetch, expand", "include/textwolf/xmlpathautomaton.hpp: PathElement"]}
{"id": "C44", "title": "Path expressions are independent", "statement": "Adding an expression to an automaton does not change the reports of the other expressions.", "quantifier": "for every set of expressions and every document", "why_tests_cant": "Interaction of arbitrary expression pairs.", "anchors": ["include/textwolf/xmlpathselect.hpp: match (rejects), fetch (scope mask)"]}
{"id": "C45", "title": "Index ranges select the named elements", "statement": "FROM(a), TO(b), RANGE(a,b), INDEX(i) restrict an output to the elements with index in the range, counted from 0.", "quantifier": "for every range and every number of matches", "why_tests_cant": "All ranges.", "anchors": ["include/textwolf/xmlpathselect.hpp: match, produce", "include/textwolf/xmlpathautomaton.hpp: PathElement::FROM, TO, RANGE, INDEX"]}
{"id": "C46", "title": "Selector scopes are restored", "statement": "After processing an open tag, any balanced sequence of items and the matching close tag, the selector's scope stack, its number of active tokens and its set of descendant searches are the same as before the open tag.", "quantifier": "for every automaton and every balanced item sequence", "why_tests_cant": "Unbounded nesting.", "anchors": ["include/textwolf/xmlpathselect.hpp: initProcessElement, closeProcessElement"]}
{"id": "C47", "title": "Path expression parser agrees with the building interface", "statement": "addExpression of a textual path with child and descendant steps builds the same automaton as the corresponding sequence of selection operators, and reports success.", "quantifier": "for every path of identifiers", "why_tests_cant": "Unbounded expressions.", "anchors": ["include/textwolf/xmlpathautomatonparse.hpp: addExpression", "include/textwolf/xmlpathautomaton.hpp: PathElement::doSelect"]}
{"id": "C48", "title": "Result iteration style does not matter", "statement": "Walking through the results of a selector push with prefix or postfix increment leaves the selector in the same state.", "quantifier": "for every automaton and item", "why_tests_cant": "Depends on the number of results and the item type.", "anchors": ["include/textwolf/xmlpathselect.hpp: iterator::operator++(int), ~iterator"]}
{"id": "C49", "title": "Exception texts name their cause", "statement": "what() of a textwolf exception names the cause it was raised with.", "quantifier": "for every cause", "why_tests_cant": "Whole-table fact.", "anchors": ["include/textwolf/exception.hpp: exception::what"]}
{"id": "C50", "title": "Entity buffer safety", "statement": "While parsing entities of any length the scanner never writes outside its 16 byte entity buffer and the entity value never exceeds 64 bits.", "quantifier": "for every input, charset and chunk partition", "why_tests_cant": "Memory safety over arbitrary input.", "anchors": ["include/textwolf/xmlscanner.hpp: TokState::buf, parseNumericBaseEntity, parseNamedEntity, fallbackEntity"]}
{"id": "C51", "title": "No read behind the terminating null", "statement": "Scanning a null terminated char string through a raw pointer never reads behind its terminating null.", "quantifier": "for every null terminated string", "why_tests_cant": "Undefined behaviour is not observable by tests.", "anchors": ["include/textwolf/xmlscanner.hpp: nextItem", "include/textwolf/charset_utf8.hpp: UTF8::skip", "include/textwolf/charset_isolatin.hpp"]}
{"id": "C52", "title": "Syntax errors are stable", "statement": "After a syntax error of the token automaton (unexpected character) every further call reports an error again and consumes nothing.", "quantifier": "for every input and number of further calls", "why_tests_cant": "Unbounded number of calls in every automaton state.", "anchors": ["include/textwolf/xmlscanner.hpp: nextItem (missError)"]}
{"id": "C53", "title": "Identical paths share automaton states", "statement": "Defining the same keyed step twice from the same state returns the same successor and does not change the automaton.", "quantifier": "for every automaton and step", "why_tests_cant": "All automata.", "anchors": ["include/textwolf/xmlpathautomaton.hpp: defineNext"]}
{"id": "C54", "title": "Declared header and document agree", "statement": "The header printed by XMLPrinter with an encoding name is recognised by XmlHdrParser as that encoding, for every output charset.", "quantifier": "for every encoding name of printable ASCII characters and every charset", "why_tests_cant": "Unbounded names across two components.", "anchors": ["include/textwolf/xmlprinter.hpp: printHeader", "include/textwolf/xmlhdrparser.hpp: parse"]}
{"id": "C55", "title": "Mask change after an interruption", "statement": "A call of nextItem() that was left by the end of a chunk may be continued with another element mask without undefined behaviour.", "quantifier": "for every document, chunk partition and pair of masks", "why_tests_cant": "Depends on the point of the interruption and on the masks.", "anchors": ["include/textwolf/xmlscanner.hpp: nextItem, skipToken, expectStr, TokState"]}
{"id": "C56", "title": "No internal errors", "statement": "The error code ErrInternal is never reported.", "quantifier": "for every input, mask sequence and number of calls", "why_tests_cant": "Unreachability over all inputs.", "anchors": ["include/textwolf/xmlscanner.hpp: nextItem, parseTokenRecover"]}
{"id": "C57", "title": "Failed allocation in the tag stack", "statement": "When a push on the stack of open tags fails with std::bad_alloc, the stack holds the same elements as before and can be used further.", "quantifier": "for every history of operations and every point at which the allocator refuses a block", "why_tests_cant": "Allocation failures at every point of every history.", "anchors": ["include/textwolf/xmltagstack.hpp: TagStack::push"]}
{"id": "C58", "title": "Characters consumed by the header parser", "statement": "charsConsumed() is the number of ASCII characters of the header read so far.", "quantifier": "for every input and partition into chunks", "why_tests_cant": "Depends on every byte read.", "anchors": ["include/textwolf/xmlhdrparser.hpp: XmlHdrParser::charsConsumed, nextChar"]}
{"id": "C59", "title": "Byte order mark", "statement": "A byte order mark in front of the XML declaration is skipped by the header parser.", "quantifier": "for every document with a byte order mark", "why_tests_cant": "Ranges over all documents.", "anchors": ["include/textwolf/xmlhdrparser.hpp: XmlHdrParser::parse"]}
{"id": "C60", "title": "Header text independent of application encoding", "statement": "The fixed parts of the XML header and of the document type are printed as ASCII text in the output encoding, whatever the encoding of the strings of the application.", "quantifier": "for every application encoding, output encoding, encoding name, standalone value and document type ids", "why_tests_cant": "Tests use UTF-8 for the application; the fault is only visible with a multi byte application charset.", "anchors": ["include/textwolf/xmlprinter.hpp: printHeader, printDoctype, printToBuffer"]}
{"id": "C61", "title": "Exceptions leave the output unchanged", "statement": "A printer call that throws an exception leaves the output buffer as it was.", "quantifier": "for every printer state, call and allocation failure", "why_tests_cant": "Allocation failures do not happen in tests.", "anchors": ["include/textwolf/xmlprinter.hpp: printOpenTag", "include/textwolf/xmltagstack.hpp: push"]}
{"id": "C62", "title": "Values are printed completely", "statement": "Every character of a value is printed, the control characters including NUL as the references in the substitution tables.", "quantifier": "for every value and every pair of encodings", "why_tests_cant": "Values with embedded NUL characters are not among the tests, and there are infinitely many values.", "anchors": ["include/textwolf/xmlprinter.hpp: printToBufferSubstChr, printToBufferAttributeValue, printToBufferContent"]}
{"id": "C63", "title": "Code page index is checked", "statement": "The constructor of an ISO-Latin code page accepts exactly the indices 1 to 9 and throws otherwise; an accepted page keeps all bytes below 160 and decodes every byte to a 16 bit code.", "quantifier": "for every index and every byte", "why_tests_cant": "The index is a 32 bit number and each page has 256 bytes; tests look at samples of pages and bytes.", "anchors": ["include/textwolf/codepages.hpp"]}
{"id": "C64", "title": "Iterator differences count increments", "statement": "For every source iterator the difference to its own state k increments before is k; the difference in the other direction is -k or throws; getPosition() of a chunk iterator is the offset in the chunk and endOfChunk() tells that all bytes of it were passed.", "quantifier": "for every iterator state and every number of increments", "why_tests_cant": "Tests subtract iterators at small distances in one buffer; wrap around and buffer changes need arbitrary distances.", "anchors": ["include/textwolf/sourceiterator.hpp", "include/textwolf/cstringiterator.hpp", "include/textwolf/istreamiterator.hpp"]}
{"id": "C65", "title": "Expressions with namespaces are rejected", "statement": "addExpression of a text with two colons in sequence returns the position of the first of them plus one and does not change the automaton.", "quantifier": "for every text, every character set and every automaton", "why_tests_cant": "All positions in texts of any length.", "anchors": ["include/textwolf/xmlpathautomatonparse.hpp: addExpression"]}
{"id": "C66", "title": "Items of well formed documents", "statement": "A document built from an optional XML header, document type declarations, tags with attributes in single, double or no quotes, text with references, comments, processing instructions and CDATA sections, with white space wherever it is allowed, is read as exactly the items it was built from, without error, in every encoding and for every output encoding; the same document in two encodings gives the same items.", "quantifier": "for every document of the grammar, every source encoding that has its characters and every output encoding", "why_tests_cant": "Documents nest and combine the constructs without limit; tests read a fixed collection of documents.", "anchors": ["include/textwolf/xmlscanner.hpp: XMLScanner::nextItem, Statemachine", "include/textwolf/textscanner.hpp"]}
{"id": "C67", "title": "Loop over the iterators of a scanner", "statement": "for (it = begin(); it != end(); ++it), and the same with it++, visits the items that calls of nextItem deliver, in this order, each with its type and text, makes one call for each of them, and ends at Exit.", "quantifier": "for every source, every number of rounds, every document", "why_tests_cant": "Documents with errors and documents of any length; that the loop ends needs an argument about all states of the scanner.", "anchors": ["include/textwolf/xmlscanner.hpp: XMLScanner::iterator, begin, end"]}
{"id": "C68", "title": "Error text of an element", "statement": "Element::error() is NULL if the element is not an error and the text of the error if it is one.", "quantifier": "for every element visited by an iterator on any source", "why_tests_cant": "A test with an error at the begin of a token sees an empty text, one with another error some text; only the general statement shows that it is never the text of the error.", "anchors": ["include/textwolf/xmlscanner.hpp: XMLScanner::iterator::Element::error"]}
{"id": "C69", "title": "Postfix increment of a scanner iterator", "statement": "The iterator returned by it++ is still at the item that was left, with its type, size and text; it itself is at the next item.", "quantifier": "for every iterator reached on any source", "why_tests_cant": "The text is wrong only if the scanner has overwritten it.", "anchors": ["include/textwolf/xmlscanner.hpp: XMLScanner::iterator::operator++(int)"]}
{"id": "C70", "title": "Memory is released exactly once", "statement": "The memory held by objects of IStreamIterator, StaticBuffer, TagStack and State is released exactly once, is never used after it was released, and is all released when the objects are gone.", "quantifier": "for every sequence of constructions, copies, assignments, uses, renewals and destructions of objects", "why_tests_cant": "Sequences of operations are unlimited, and releasing memory twice often has no visible effect.", "anchors": ["include/textwolf/istreamiterator.hpp: IStreamIterator", "include/textwolf/staticbuffer.hpp: StaticBuffer", "include/textwolf/xmltagstack.hpp: TagStack", "include/textwolf/xmlpathautomaton.hpp: State"]}
{"id": "C71", "title": "Copies of a stream iterator", "statement": "A copy of an IStreamIterator and the original deliver the same bytes with the same positions, in whatever order the two are advanced.", "quantifier": "for every stream, every buffer size, every position of the copy, every order of increments", "why_tests_cant": "Differences depend on where the buffer ends relative to both iterators.", "anchors": ["include/textwolf/istreamiterator.hpp: IStreamIterator( const IStreamIterator&), operator++, fillbuf"]}
{"id": "C72", "title": "Iterating on a standard stream", "statement": "An IStreamIterator on a StdInputStream delivers the bytes of the std::istream and then null bytes, for every buffer size; if reading fails, an exception is raised.", "quantifier": "for every content, every buffer size, every point of failure", "why_tests_cant": "All relations of content length and buffer size; failures of streams are hard to provoke in tests.", "anchors": ["include/textwolf/istreamiterator.hpp: StdInputStream::read, errorcode, IStreamIterator"]}
{"id": "C73", "title": "Contents, attributes and close tags of selected elements", "statement": "An automaton built from queries for elements, for the contents of elements, for the attributes of elements or for their close tags, each with child, descendant and wildcard steps and conditions for attributes and also with a descendant search before the content, the attribute or the close tag, reports at each item of a stream each type as often as the queries with this type select the item, and nothing else.", "quantifier": "for every set of queries, every type, every stream of items", "why_tests_cant": "Queries share states of the automaton and masks of the scopes; whether a token is looked at depends on all the other queries and on all items before.", "anchors": ["include/textwolf/xmlpathselect.hpp: XMLPathSelect::push, initProcessElement, match, fetch", "include/textwolf/xmlpathautomaton.hpp: Mask, PathElement, defineNext, defineOutput"]}
{"id": "C74", "title": "From texts to reports", "statement": "Path expressions written as texts and added to an automaton, and a document written as text, scanned into the character set of the automaton and given item by item to a selector, whole or in chunks: every expression is taken, no step fails, and each type is reported at each item of the document as often as the expressions with this type select the item.", "quantifier": "for every set of expressions, every document of the grammar, every character set of the expressions and of the document, every cut into chunks", "why_tests_cant": "Combines all parts of the library; the product of expressions, documents, character sets and chunks cannot be enumerated.", "anchors": ["include/textwolf/xmlpathautomatonparse.hpp: XMLPathSelectAutomatonParser::addExpression", "include/textwolf/xmlscanner.hpp: XMLScanner::nextItem", "include/textwolf/xmlpathselect.hpp: XMLPathSelect::push, fetch"]}
{"id": "C75", "title": "Conditions of path steps", "statement": "An expression for elements whose steps have conditions [@name=value] reports each element once if the elements on the path to it have attributes fulfilling all the conditions of their steps, whatever the order of the attributes is, and reports nothing else.", "quantifier": "for every list of steps with any number of conditions, every stream of elements with attributes of different names", "why_tests_cant": "Number and order of attributes and conditions are unbounded; tokens that wait for attributes of one element must not be fulfilled by another.", "anchors": ["include/textwolf/xmlpathautomaton.hpp: PathElement::ifAttribute, doSelect", "include/textwolf/xmlpathselect.hpp: match, expand", "include/textwolf/xmlpathautomatonparse.hpp: XMLPathSelectAutomatonParser::addExpression"]}
{"id": "C76", "title": "Alternatives stand for expressions", "statement": "An expression with alternatives in braces selects from a document the same as the expressions that take one of the alternatives at each place, added one after the other with the same type.", "quantifier": "for every expression with any number of alternatives at any number of places, every set of other expressions before and after it, every document", "why_tests_cant": "The number of the expressions meant is the product of the numbers of alternatives; the lists of path elements the parser keeps grow with it.", "anchors": ["include/textwolf/xmlpathautomatonparse.hpp: XMLPathSelectAutomatonParser::parseIdentifiers, addExpression"]}
{"id": "C77", "title": "Language of the path parser", "statement": "If addExpression returns, it returns 0 exactly for the texts of the grammar of path expressions; for every other text it returns a position in the text, counted from 1, at a boundary of characters.", "quantifier": "for every text in every character set of the source without the two colons of a namespace, every automaton the expression is added to", "why_tests_cant": "The texts that are not of the grammar are unbounded; tests reject a few samples of wrong expressions, they do not show that nothing else is taken.", "anchors": ["include/textwolf/xmlpathautomatonparse.hpp: XMLPathSelectAutomatonParser::addExpression, parseIdentifiers, parseValue, parseNum"]}
{"id": "C78", "title": "Rejected expressions have no effect", "statement": "If texts that are no expressions are given to the parser between expressions, it returns 0 for the expressions and a position for the others, and the selection from a document is the same as if only the expressions had been given.", "quantifier": "for every list of expressions and rejected texts in any order, every document", "why_tests_cant": "The parser calls the building interface while it reads, so a rejected text leaves states and transitions behind; that they never report anything depends on all the expressions that are added and all documents.", "anchors": ["include/textwolf/xmlpathautomatonparse.hpp: XMLPathSelectAutomatonParser::addExpression", "include/textwolf/xmlpathautomaton.hpp: PathElement"]}
{"id": "C79", "title": "Several ranges of an output", "statement": "If several ranges are given for an output, an element is reported if and only if it is reported with each of the ranges alone.", "quantifier": "for every number of ranges in any order, every number of matches", "why_tests_cant": "The number and order of ranges and the number of matches are unbounded; the bounds left depend on all ranges given before.", "anchors": ["include/textwolf/xmlpathautomaton.hpp: PathElement::doRange, doCount, doStart, FROM, TO, RANGE, INDEX", "include/textwolf/xmlpathselect.hpp: produce, match"]}
{"id": "C80", "title": "Copies of a selector", "statement": "A copy of a path selector reports for the items that follow the same as the selector it was copied from.", "quantifier": "for every automaton, every stream of items before and after the copy", "why_tests_cant": "The state of a selector (scopes, tokens, searches) depends on the whole stream read and is unbounded; a copy that misses a part of the state differs only for certain streams afterwards.", "anchors": ["include/textwolf/xmlpathselect.hpp: XMLPathSelect copy constructor, initProcessElement, fetch, closeProcessElement"]}
{"id": "C81", "title": "The kind of source does not matter", "statement": "The same calls of nextItem on the same document give the same items, errors and positions whether the document is read with a SrcIterator, a CStringIterator or an IStreamIterator with any buffer size and any pattern of short reads.", "quantifier": "for every document, character set, sequence of calls, buffer size and pattern of reads", "why_tests_cant": "The pieces a stream is read in can end anywhere, in the middle of characters, tags and entities; documents, calls, buffer sizes and pieces are unbounded.", "anchors": ["include/textwolf/istreamiterator.hpp: IStreamIterator", "include/textwolf/cstringiterator.hpp: CStringIterator", "include/textwolf/sourceiterator.hpp: SrcIterator", "include/textwolf/xmlscanner.hpp: nextItem, getTokenPosition", "include/textwolf/textscanner.hpp: getPosition"]}
{"id": "C82", "title": "The output buffer does not influence printing", "statement": "Whatever the output buffers given to the calls of an XMLPrinter are (strings, static buffers, streams, one for all calls or different ones), the calls return the same, the printer is in the same state, and each buffer gets the bytes a string would get, as far as it has room.", "quantifier": "for every sequence of calls, every pair of character sets, every kind, size and state of the buffers and every assignment of buffers to calls", "why_tests_cant": "The place where a buffer gets full can be in the middle of any character of any call; sequences of calls, sizes and assignments are unbounded.", "anchors": ["include/textwolf/xmlprinter.hpp: XMLPrinter", "include/textwolf/ostreamoutput.hpp: OstreamOutput::push_back", "include/textwolf/staticbuffer.hpp: StaticBuffer::push_back"]}
{"id": "C83", "title": "What is selected in a printed tree", "statement": "A document tree is printed, the output is scanned and the items are given to a path selector for expressions given as texts: the selector reports the elements, attributes, contents and close tags the expressions select in the tree, each at its place in the document and as often as it is selected, and nothing else.", "quantifier": "for every tree, every list of expressions of the language, and all character sets of application, document, expressions and selector", "why_tests_cant": "Trees, strings and expressions are unbounded, and printer, scanner, parser and selector have to agree about every combination of them.", "anchors": ["include/textwolf/xmlprinter.hpp: XMLPrinter", "include/textwolf/xmlscanner.hpp: nextItem", "include/textwolf/xmlpathautomatonparse.hpp: addExpression", "include/textwolf/xmlpathselect.hpp: push, fetch"]}
{"id": "C84", "title": "Selecting in a document with a header", "statement": "For a path selector the XML header is an element with the name and the attributes of the header, before the document and around it: at the items of the header the types are reported as at the items of such an element; at the items behind it the expressions are answered as without a header, and also the rest of each expression whose first step the header fulfils, as often as the header fulfils it.", "quantifier": "for every list of expressions for elements, contents, attributes and close tags with steps, wildcards, descendants and conditions, every header and every document behind it; also for expressions and documents given as texts", "why_tests_cant": "Expressions, headers and documents are unbounded; the tokens left behind by the header stay active for the whole document and take part in every later match.", "anchors": ["include/textwolf/xmlpathselect.hpp: initProcessElement, fetch, produce", "include/textwolf/xmlpathautomaton.hpp: Mask::seekop", "include/textwolf/xmlscanner.hpp: nextItem (HeaderStart)"]}
{"id": "C85", "title": "Names and values in the interface for building path automatons", "statement": "A name or a value given to the interface for building path automatons selects the elements, attributes and values that have this name or value, where higher characters may be given as references. (Of the text given the characters up to the first one that is none of a name are taken, each & as the character 0, and of that the first 1024 bytes.)", "quantifier": "for every text of characters the character set of the automaton can print, every position in every automaton", "why_tests_cant": "Texts are unbounded in length and contents; each character of the character set may be at each position.", "anchors": ["include/textwolf/xmlpathautomaton.hpp: PathElement::doSelect", "include/textwolf/xmlscanner.hpp: parseStaticToken, parseStaticNumericEntityValue", "include/textwolf/staticbuffer.hpp: push_back"]}
{"id": "C86", "title": "Counting contents for ranges", "statement": "With numbers in path expressions the contents are counted for every element reached by the steps of the expression on its own, beginning with 0 at its open tag: those directly in it, or also those in the elements in it, if the expression asks for them. Whether a content is reported for the element depends only on the range and on the number of contents n before it in this element (it is reported if 2n+1 is in the range), not on other elements, other ways to the element or other expressions. For the values of attributes the number is always the first one; elements and close tags are not counted. It does not matter at which step of an expression the number is written.", "quantifier": "for every list of expressions for elements, contents, attributes and close tags with steps, wildcards, descendants, conditions and any lists of ranges (upper bounds from 0 to 2147483646), every stream of items, every type; also for expressions with numbers and documents given as texts, whole or in chunks", "why_tests_cant": "Each open element has counters of its own for each way to it; the nesting, the number of contents at each level and the combinations of expressions are unbounded.", "anchors": ["include/textwolf/xmlpathselect.hpp: produce, fetch, initProcessElement, expand, Token", "include/textwolf/xmlpathautomaton.hpp: Core, PathElement::doRange, FROM, TO, RANGE, INDEX", "include/textwolf/xmlpathautomatonparse.hpp: addExpression"]}
{"id": "C87", "title": "Path automatons and selectors stay inside of their vectors", "statement": "Whatever is built with path elements and texts, and whatever is done with selectors on it, every access to the vectors of states, tokens, follow tokens and levels is one to an existing element, and every loop over them comes to an end: a call on a path element returns a path element or fails because of the name given, a selector can be made, a further result can be got, all results of an item can be walked through with either increment, and the states that may match next and the types they emit can be listed.", "quantifier": "for every sequence of building steps and selector operations, every item type and key, every path element got before", "why_tests_cant": "Histories of automatons and selectors are unbounded, and a wrong index is seen only in the history that leads to it; that a loop ends cannot be observed.", "anchors": ["include/textwolf/xmlpathautomaton.hpp: defineNext, defineOutput, getEmmitedTokens", "include/textwolf/xmlpathselect.hpp: expand, produce, match, fetch, initProcessElement, closeProcessElement, getTokenTypeMatchingStates"]}
{"id": "C88", "title": "Names and path expressions are read inside of their memory", "statement": "Building a path automaton reads the names given to the functions of path elements and the texts given to addExpression up to the terminating null and never beyond, and comes to an end: every call with a name returns a path element, and every text, well formed or not, is accepted or refused with a position.", "quantifier": "for every name, every text in every character set, every automaton built before and every character set of the automaton", "why_tests_cant": "A read beyond the terminating null mostly goes unnoticed, and whether it happens depends on the last character of the name; texts that make the parser run forever or beyond the end cannot be excluded by samples.", "anchors": ["include/textwolf/xmlpathautomatonparse.hpp: addExpression, parseIdentifier, parseNum, skipSpaces", "include/textwolf/xmlpathautomaton.hpp: defineNext", "include/textwolf/xmlscanner.hpp: parseStaticToken"]}
{"id": "C89", "title": "Building only adds to a path automaton", "statement": "Defining further paths, with path elements or with texts, successful or not, never changes what has been defined before: every state keeps its index, what it matches, its key, its range, the type it emits and the state it leads to, and the link to the next alternative is set at most once.", "quantifier": "for every automaton that can be built and every sequence of further building steps", "why_tests_cant": "Which states share a prefix depends on all the paths defined before; a test sees one order of definitions, and an overwritten state shows only in documents that use the older path.", "anchors": ["include/textwolf/xmlpathautomaton.hpp: defineNext, defineOutput, State::isempty", "include/textwolf/xmlpathautomatonparse.hpp: addExpression"]}
{"id": "C90", "title": "The counters of ranges stay in their type", "statement": "No addition or subtraction of element numbers leaves the type int, neither when ranges are defined nor when elements are counted. Counters of a selector only go down, from the range of their state to zero; unlimited ranges are never counted, skipped elements are the first ones counted, and a range used up matches nothing anymore.", "quantifier": "for all calls with numbers of the type int, all texts, all sequences of selector operations, also on automatons that grow meanwhile", "why_tests_cant": "An overflow needs the largest number or billions of elements; signed overflow is undefined and mostly goes unnoticed.", "anchors": ["include/textwolf/xmlpathautomaton.hpp: TO, FROM, RANGE, INDEX, doRange", "include/textwolf/xmlpathselect.hpp: produce, match, expand", "include/textwolf/xmlpathautomatonparse.hpp: parseNum"]}
{"id": "C91", "title": "The states listed for inspection are those that the next item can use", "statement": "After all results of an item have been taken from a path selector, getTokenTypeMatchingStates for an element type, with the follow tokens, lists the states the next item of this type can use: each result for such an item, with any value, is the type of a state listed or of a state behind it that waits for nothing, and a listed state without a range gives all of these as results.", "quantifier": "all automatons that can be built, all sequences of items before, all element types and values of the next item", "why_tests_cant": "What is listed depends on the level, the tokens activated by all items before and the follow tokens of all enclosing elements; a test has one history and one automaton.", "anchors": ["include/textwolf/xmlpathselect.hpp:299-322", "include/textwolf/xmlpathselect.hpp:117-136", "include/textwolf/xmlpathselect.hpp:248-289"]}
{"id": "C92", "title": "The header parser and the scanner agree about the encoding", "statement": "For every document the header parser comes to its end without error and reports the encoding that the scanner delivers as value of the header attribute encoding, and none if the scanner delivers no such attribute; a scanner that gets the data consumed by the header parser as first chunk, followed by the chunks left, reads the items of the document.", "quantifier": "for every document of the grammar of C66, every encoding and every partition of the document into chunks", "why_tests_cant": "The two parsers are written independently of each other; they have to agree for every spelling of the header, every encoding and every place where the chunks are cut.", "anchors": ["include/textwolf/xmlhdrparser.hpp:67-283", "include/textwolf/xmlhdrparser.hpp:60-63", "include/textwolf/xmlscanner.hpp:1097-1194"]}
{"id": "C93", "title": "The types listed for what is inside a tag are those its states have", "statement": "In an open tag getTokenTypeMatchingStates lists the states that an open tag in it can use, and getEmmitedTokens lists for each of them the types for items of a type. After an open tag with a name, the states it has added that match items of this type and have a type are exactly of the types listed for the states listed that fit the name, those with ranges may be missing; and the types of the states added that have no range are reported with the next item of this type.", "quantifier": "for every automaton built, every sequence of items fed, every two open tags, every type of items and every next item", "why_tests_cant": "The listing walks the automaton, the selector walks its tokens; both have to agree for every automaton, for every history and for states entered through follow tokens.", "anchors": ["include/textwolf/xmlpathautomaton.hpp:366-381", "include/textwolf/xmlpathselect.hpp:299-322", "include/textwolf/xmlpathselect.hpp:90-111", "include/textwolf/xmlpathselect.hpp:185-281"]}
{"id": "C94", "title": "The text of an automaton tells its states", "statement": "From the text tostring gives of an automaton one can read, line by line and in the order of the states, the index of each state, the indices of the next and of the linked state, whether it is for all descendants, its type, the name of the operation it waits for, which is the one operationName gives for that operation, and the source form of the name its key was made of.", "quantifier": "for every automaton built by any sequence of calls and expression texts", "why_tests_cant": "The text is made of names and numbers given by the user; that it can be read back has to hold for all of them, and the names of the operations are found by comparing masks.", "anchors": ["include/textwolf/xmlpathautomaton.hpp:318-361", "include/textwolf/xmlpathautomaton.hpp:144-184", "include/textwolf/xmlpathautomaton.hpp:60-65", "include/textwolf/xmlpathautomaton.hpp:250-279"]}
{"id": "C95", "title": "There are never more items than bytes", "statement": "A scanner returns at most as many items as the document has bytes before it returns the end or an error, for a document given in one piece, in chunks or by a stream. In a document without comments, processing instructions, CDATA sections and document type declarations, well formed or not, the end or an error does come, after at most that many items.", "quantifier": "for every sequence of bytes, all encodings, all sequences of masks, all ways to cut the document into chunks", "why_tests_cant": "A state of the scanner that returns an item without reading a character would only show in a loop for the documents that lead there; the bound is over all documents and all masks.", "anchors": ["include/textwolf/xmlscanner.hpp:281-459", "include/textwolf/xmlscanner.hpp:1097-1195"]}
{"id": "C96", "title": "The example programs of the scanner write the items of the document", "statement": "For a document of the grammar the example program XMLScanner.cpp writes a line for each item, with the name of its type and its text, and ends without exception. XMLScanner_chunkwise.cpp writes the same lines in all calls together for any way to cut the document, with its terminating null, into chunks, and the last call returns true. For any other text the lines of the items before the first error are written and the exception thrown has the text of the last item; the program ends for every text without comments, processing instructions, CDATA sections and document type declarations.", "quantifier": "for all documents of the grammar and all texts, all encodings, all ways to cut a document into chunks", "why_tests_cant": "The chunkwise program leaves the scanner by longjmp at any byte of the document and continues in a new call with a new iterator; that nothing is lost or written twice has to hold for all cuts.", "anchors": ["examples/XMLScanner.cpp:7-26", "examples/XMLScanner_chunkwise.cpp:15-37", "include/textwolf/xmlscanner.hpp:199-203", "include/textwolf/xmlscanner.hpp:1201-1354"]}
{"id": "C97", "title": "The example program with the selector", "statement": "For every document of the grammar given as a string (a little shorter than 4 GB), examples/XMLPathSelect.cpp writes exactly one line for the value of each attribute `name` (1) and `street` (2) of a root element `address`, in the order of the document, and nothing else, and then returns.", "quantifier": "for every document of the grammar in any charset, any output charset UTF-8 or ISO-Latin, any entity map", "why_tests_cant": "The set of documents is infinite; the claim joins the scanner, its iterators, the automaton and the selector.", "anchors": ["examples/XMLPathSelect.cpp: output", "include/textwolf/xmlpathselect.hpp: XMLPathSelect::push, iterator", "include/textwolf/xmlscanner.hpp: XMLScanner::iterator"]}
{"id": "C98", "title": "The example program with the text scanner", "statement": "For every string of bytes (a little shorter than 4 GB), examples/TextScanner.cpp returns after at most as many rounds as there are bytes and writes one line with the hexadecimal code for each character before the first null character or the end; for text in the charset these are exactly the codes of its characters.", "quantifier": "for every charset and every string of bytes, valid or not", "why_tests_cant": "Unbounded strings of arbitrary bytes; termination.", "anchors": ["examples/TextScanner.cpp: output", "include/textwolf/textscanner.hpp: TextScanner::operator*, operator++"]}
{"id": "C99", "title": "The output character set only influences the texts of items", "statement": "For every document, well formed or not, the types, the errors and the positions of the items do not depend on the output character set. The texts are the same parts written in the output character set: characters of the document, in their order and from the position of the item on, each beginning where a character begins, and codes of references and line ends. With an output character set other than that of the document, the texts are the same sequences of codes printed.", "quantifier": "for every document character set, string of bytes, sequence of calls with token masks, and every output character set", "why_tests_cant": "Compares runs on arbitrary malformed documents in all pairs of character sets.", "anchors": ["include/textwolf/xmlscanner.hpp: XMLScanner::push, copychar, nextItem", "include/textwolf/textscanner.hpp: TextScanner::copychar"]}
{"id": "C100", "title": "Iterators on the results of an item share one walk through the results", "statement": "Whatever a client does with the iterators on the results of items - copying, assigning, comparing, prefix and postfix increments of the one or the other, destroying, keeping them for later items - it sees each result of each item once and in order, by whichever iterator it walks, and the state of the selector is afterwards the one after the simple loop over all results of each item. This is so if the client walks to the end of the results of each item and at each close tag exactly one iterator of the selector is destroyed, after the end of the results.", "quantifier": "for every automaton, state of the selector, sequence of items, and sequence of operations on any number of iterators", "why_tests_cant": "The iterators are stateless handles with a destructor that changes the selector; which copies are made and destroyed when differs from client to client.", "anchors": ["include/textwolf/xmlpathselect.hpp: XMLPathSelect::iterator, push, fetch, closeProcessElement"]}
{"id": "C101", "title": "A cleared header parser is as good as a new one", "statement": "Whatever was done with a header parser before - data put and parsed to the end, to an error, to an exception, or not parsed at all - all calls after clear() see what they see with a new parser. So one parser tells the encodings of any number of documents in sequence, each in its own encoding and chunks, also with files in between that are no documents.", "quantifier": "for every sequence of calls before and after clear(), and every sequence of documents", "why_tests_cant": "clear() has to reset every member in every state the parser can be left in; the tests never call it.", "anchors": ["include/textwolf/xmlhdrparser.hpp: XmlHdrParser::clear"]}
{"id": "C102", "title": "A printed document read and printed again is the same", "statement": "A program that reads a document printed by the printer with a scanner, in any output encoding that has the characters of the texts, and makes for each item the call of a printer for this encoding that prints it, prints the same bytes again, and no call is rejected. (For an empty element with an end tag of its own it has to print an empty value.)", "quantifier": "for every tree of elements, texts, attributes, header and document type, all encodings of the first program, of the document and of the copying program", "why_tests_cant": "It needs scanner and printer to be inverse on all trees and for all triples of encodings; the tests only compare what one of them does with a file expected.", "anchors": ["include/textwolf/xmlprinter.hpp: XMLPrinter::printOpenTag, printAttribute, printValue, printCloseTag, printHeader, printDoctype", "include/textwolf/xmlscanner.hpp: XMLScanner::nextItem"]}
{"id": "C103", "title": "The copy of a document tells the same", "statement": "A program that reads any document - with comments, CDATA sections, processing instructions, references, any white space and quotes - with a scanner and prints it item by item with a printer, gives a document in which a scanner reads the same items: tags, attributes, header, document type and the texts in the elements, where texts that follow each other are one text. No call of the printer is rejected, and the scanner reports no error.", "quantifier": "for every document of the grammar of C66 with matching end tags, every encoding of the document, of the program and of the copy, and every output encoding of the second scanner", "why_tests_cant": "Scanner and printer have to agree on escaping and encodings for all characters and all ways of writing a document.", "anchors": ["include/textwolf/xmlprinter.hpp: XMLPrinter::printOpenTag, printAttribute, printValue, printCloseTag, printHeader, printDoctype", "include/textwolf/xmlscanner.hpp: XMLScanner::nextItem"]}
{"id": "C104", "title": "The items of any input come in the order of a grammar", "statement": "Whatever the input is, the items of a scanner other than errors come in an order: a header start only as first item and behind it attributes until the header end; the value of an attribute exactly behind its name; attributes and the immediate end of a tag only behind an open tag; the values of a declaration until its end; nothing but the exit item behind the exit item. Each step that is allowed by this order occurs in a document.", "quantifier": "for every source, output character set, entity map and sequence of calls of nextItem with any masks, the source whole or in chunks", "why_tests_cant": "The order is an invariant over all inputs, also wrong ones, and all cuts in chunks; the tests look at well formed documents.", "anchors": ["include/textwolf/xmlscanner.hpp: XMLScanner::nextItem", "include/textwolf/xmlscanner.hpp: Statemachine"]}
{"id": "C105", "title": "The reports of a selector on any input", "statement": "A program that gives every item of a scanner other than an error to a selector gets the reports the path expressions mean for this sequence of items, also if the input is not well formed: close tags without open tags, errors in texts, tags not closed, and any chunks.", "quantifier": "for every list of path expressions of the grammar of the parser, every source (also in chunks), entity map, mask and sequence of calls", "why_tests_cant": "It needs scanner, parser, automaton and selector together on all inputs, wrong ones included.", "anchors": ["include/textwolf/xmlscanner.hpp: XMLScanner::nextItem", "include/textwolf/xmlpathselect.hpp: XMLPathSelect::push, iterator", "include/textwolf/xmlpathautomatonparse.hpp: XMLPathSelectAutomatonParser::addExpression"]}
{"id": "C106", "title": "Exactly which documents are accepted", "statement": "A scanner reads a document to its end without an error other than an unknown entity exactly if the characters of the document, up to a null character, are a document of a grammar that is much wider than XML: names may be missing, values may be without quotes or empty, tags need not match, there may be white space behind the slash of an empty tag, a comment ends with an even number of dashes before the bracket. The grammar also tells the types of all items, and only one sequence of types for each document. The types of items asked for with a call have no influence on this.", "quantifier": "for every document, in one piece or in chunks, encodings, entity map, number of calls, types of items asked for", "why_tests_cant": "It tells of infinitely many inputs that they are accepted and of all others that they are not.", "anchors": ["include/textwolf/xmlscanner.hpp: XMLScanner::Statemachine", "include/textwolf/xmlscanner.hpp: XMLScanner::nextItem", "include/textwolf/xmlscanner.hpp: XMLScanner::parseToken", "include/textwolf/xmlscanner.hpp: XMLScanner::parseTokenString"]}
{"id": "C107", "title": "The null bytes behind the text of an item", "statement": "Behind the text of an item the scan iterator points to there is exactly one null byte that may be read, and if the text is empty exactly five; reading more is undefined. So the text can be read as a text that ends with a null in output encodings with one byte per part, and an empty text in all of them. For texts that are not empty in UTF-16, UCS-2 and UCS-4 it is not so.", "quantifier": "for every scanner, every iterator that was reached, every number of bytes read", "why_tests_cant": "A test that reads one byte too many of a heap buffer mostly finds a null by accident, so it does not see the difference between one and two bytes that may be read.", "anchors": ["include/textwolf/xmlscanner.hpp: XMLScanner::iterator::Element", "include/textwolf/xmlscanner.hpp: XMLScanner::getItemPtr", "include/textwolf/xmlscanner.hpp: XMLScanner::getItemSize"]}
{"id": "C108", "title": "Exactly which documents make a call run forever", "statement": "A scanner runs forever on a document, without an error other than an unknown entity before, exactly if the document is cut off inside of a comment, a processing instruction, a CDATA section or an internal subset: with null characters and -->, ?>, ]]> or ]> behind it, it would be a document of the grammar of C106. The calls that return before give the items of this document. Each document is either accepted, or cut off like this, or an error is reported, and only one of the three; which one is known after twice as many calls as the document has bytes and one more.", "quantifier": "for every document, in one piece or in chunks, encodings, entity map, number of calls, types of items asked for", "why_tests_cant": "That a call never returns cannot be observed; and it tells this of infinitely many documents and of all others that every call returns.", "anchors": ["include/textwolf/xmlscanner.hpp: XMLScanner::Statemachine", "include/textwolf/xmlscanner.hpp: XMLScanner::nextItem"]}
{"id": "C109", "title": "The first error is reported at the first character that cannot be continued", "statement": "If a scanner reports an error that is not about an unknown entity, and no such error and no end before, then the source stands at the first character that is wrong: the characters before it are the beginning of a document of the grammar of C106, and together with this character they are not. So the place does not depend on the output encoding, the entity map, the buffer, the number of calls and the types of items asked for. Conversely, if a character inside of the text cannot be continued and no document of the grammar ends before it, an error is reported.", "quantifier": "for every document, encodings, entity map, number of calls, types of items asked for", "why_tests_cant": "That no continuation of the text is a document of the grammar tells of infinitely many texts; a test shows only that an error is reported for the ones it tries.", "anchors": ["include/textwolf/xmlscanner.hpp: XMLScanner::Statemachine", "include/textwolf/xmlscanner.hpp: XMLScanner::nextItem", "include/textwolf/textscanner.hpp: TextScanner::getPosition"]}
{"id": "C110", "title": "What the header parser says about any text", "statement": "XmlHdrParser tells of any bytes that are put into it exactly one of: more is needed, the header is complete (or there is none), there is this mistake, or it throws; and exactly what a grammar of headers says about the text, that are the bytes but the nulls. The header is complete at the question mark behind <?xml or behind attributes named version, encoding or standalone in any order and number, with white space anywhere between the parts, or at a letter behind the first bracket. A mistake is told at the first character that cannot be continued to a header, with the message for the place and the character. The encoding is the value of the last attribute encoding that ended before. The exception is thrown exactly if four nulls follow a text that can be continued.", "quantifier": "for every sequence of bytes in any chunks", "why_tests_cant": "It tells of infinitely many texts that they are headers and of all others at which place and why they are not.", "anchors": ["include/textwolf/xmlhdrparser.hpp: XmlHdrParser::parse", "include/textwolf/xmlhdrparser.hpp: XmlHdrParser::nextChar", "include/textwolf/xmlhdrparser.hpp: XmlHdrParser::lasterror", "include/textwolf/xmlhdrparser.hpp: XmlHdrParser::encoding"]}
{"id": "C111", "title": "A printer after an exception of its buffer", "statement": "If push_back of the output buffer throws, the exception leaves the call of the XMLPrinter that has the first byte without room; the buffer has exactly the bytes before it. The members of the printer are those before the call, with these exceptions: if printOpenTag or printValue had completely printed the > of a tag, the printer is in the content of the tag; if printCloseTag had completely printed the end of the root and the line break is missing, the tag is closed. With room for all bytes nothing is thrown. A call that threw is therefore not undone in general.", "quantifier": "for every sequence of calls, every pair of character sets, every number of bytes there is room for and every exception", "why_tests_cant": "The exception can be thrown at any byte of any call in any state; the cases in which the members have changed are a few positions in unbounded sequences of calls.", "anchors": ["include/textwolf/xmlprinter.hpp: XMLPrinter", "include/textwolf/ostreamoutput.hpp: OstreamOutput::push_back"]}
{"id": "C112", "title": "The items of any accepted document, with texts and positions", "statement": "For a document of the grammar of C106 the i-th item of the scanner is the i-th item of the document: it has its type, and if it has a text it stands at the first character of its token (a name, a value inside its quotes or without quotes, a word or a string of a declaration, a text, where white space is dropped before the text only behind a header, a declaration or a comment) and its text is the value of exactly the characters of this token. If the document has no ampersand there is no error, the texts are the characters of the tokens in the encoding of the output with CR and CR LF replaced by LF, and behind the items there is the end item for ever. The text tells only one list of items.", "quantifier": "for every accepted document, every encoding of document and output, every entity map, every sequence of calls with any masks (positions and texts for the types asked for), every splitting into chunks; with ampersands up to the first error", "why_tests_cant": "It fixes the complete output of the scanner for an infinite set of documents that includes all kinds of sloppy markup.", "anchors": ["include/textwolf/xmlscanner.hpp: XMLScanner::nextItem", "include/textwolf/xmlscanner.hpp: XMLScanner::getTokenPosition", "include/textwolf/xmlscanner.hpp: XMLScanner::Statemachine", "include/textwolf/xmlscanner.hpp: XMLScanner::parseToken"]}
{"id": "C113", "title": "The text and the position of an item that is not asked for", "statement": "An item with a token (name, value, text or tag) whose type is not in the mask of the call has the text and the position of the item before it; the first item of a scanner has then an empty text and the position 0. getItem and getTokenPosition are never those of a part of the item that was left out.", "quantifier": "for every document (accepted or not), every encoding of document and output, every entity map, every sequence of calls with any masks, every item, every splitting into chunks", "why_tests_cant": "What is left in the buffer depends on every path of the scanner through skipped tokens; the claim is about all documents and all sequences of masks.", "anchors": ["include/textwolf/xmlscanner.hpp: XMLScanner::nextItem", "include/textwolf/xmlscanner.hpp: XMLScanner::getItem", "include/textwolf/xmlscanner.hpp: XMLScanner::getTokenPosition", "include/textwolf/xmlscanner.hpp: XMLScanner::skipToken"]}
{"id": "C114", "title": "Everything a scanner says about an accepted document with references", "statement": "For a document of the grammar of C106 all calls return. A call that comes to an item with a text asked for reports an error exactly if the text has a reference to an unknown entity: an ampersand, at most 15 characters of names (maybe none) that are no number and no predefined name, and a semicolon, where the map of entities has no character. The error is ErrUndefinedCharacterEntity, its text is the value of the characters before the first of these references, its position the start of the text, and the next item is the rest of the text from this semicolon on, for which the same holds. Without such a reference the item has its type, its position and the value of all characters of the text. So there is no other error, and none without unknown entities.", "quantifier": "for every accepted document, every encoding of document and output, every entity map, every sequence of calls with any masks, every splitting into chunks", "why_tests_cant": "It fixes the complete output of the scanner for an infinite set of documents with any mixture of references, good, garbled and unknown, in any places.", "anchors": ["include/textwolf/xmlscanner.hpp: XMLScanner::nextItem", "include/textwolf/xmlscanner.hpp: XMLScanner::parseToken", "include/textwolf/xmlscanner.hpp: XMLScanner::parseNamedEntity", "include/textwolf/xmlscanner.hpp: XMLScanner::getTokenPosition"]}
{"id": "C115", "title": "What a description of a state machine builds", "statement": "The calls of the builder of state machines raise no exception exactly if they describe at most 64 states in ascending order, each with control characters and targets in range and with nothing given twice. Then each state has exactly what its block says: for a control character the target named for it, or the first target given for all others, or none; the error, the action and the fallback given. An exception tells what is wrong with the call. No sequence of calls writes outside of the array, also if the caller goes on behind exceptions. Reading a state gives its description, and a number behind the last state is refused, so that a machine never leads outside of its table. The constructor of the XML scanner is such a description.", "quantifier": "for every sequence of calls with any integer arguments, every state and every number", "why_tests_cant": "The only machine ever built is the one of the scanner; the limits of the table and all other descriptions are never tried.", "anchors": ["include/textwolf/xmlscanner.hpp: ScannerStatemachine", "include/textwolf/xmlscanner.hpp: ScannerStatemachine::get", "include/textwolf/xmlscanner.hpp: Statemachine"]}
{"id": "C116", "title": "The items at the beginning of a text do not depend on what follows", "statement": "If the first characters of a text are the first characters of a document of the grammar, each item of the document up to the last one whose token ends among them together with the character behind it is told by the scanner, with the type, the position and the text the grammar tells, whatever follows in the text: a wrong character, the end of the text inside of a section, or anything else; the only other result is the error about a reference to an unknown entity. For a text with an error the characters in front of the place of the error are such a beginning, with the character at that place they are not, and all items told before the error, with or without text, are the first items of every document that begins with these characters.", "quantifier": "for every text, every number of characters, every document of the grammar that begins with them, every sequence of calls with any masks, every pair of encodings, every table of entities, in one piece and in chunks", "why_tests_cant": "The items before an error depend on all texts before and after the error; tests have a few wrong documents.", "anchors": ["include/textwolf/xmlscanner.hpp: nextItem", "include/textwolf/xmlscanner.hpp: parseToken", "include/textwolf/xmlscanner.hpp: getTokenPosition"]}
{"id": "C117", "title": "What a scanner says depends only on the bytes up to the current character", "statement": "After any calls on any text, well formed or not, the results of all these calls (types, texts, errors, positions) are determined by the bytes of the text up to the end of the character at which the source is: the same calls on any other text with these first bytes return the same results, in one piece or in chunks, and leave the source at the same position, whatever follows there, also if nothing follows. After a call that returns, the source is less than 16 bytes behind the end of the text.", "quantifier": "for every pair of texts with the same bytes up to that place, every sequence of calls with any masks, every pair of encodings, every table of entities", "why_tests_cant": "It is about all texts that could follow; a test has one.", "anchors": ["include/textwolf/xmlscanner.hpp: nextItem", "include/textwolf/textscanner.hpp: operator++", "include/textwolf/textscanner.hpp: control"]}
