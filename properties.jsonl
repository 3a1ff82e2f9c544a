{"id": "C01", "title": "WARC write/read round trip", "statement": "Writing any sequence of well-formed WarcRecords (content given as a (type, bytes) tuple) with write_to to one uncompressed file and then reading the file with open_archive (WarcRecord's or with format detection) yields exactly those records in order: same version, same headers (Content-Type and Content-Length being the ones of the tuple), same content bytes, empty errors, and then a clean end of stream. Well-formed: a version line the parser knows, header names without colon and newline, names and values without newline and without white space at their ends; content is arbitrary.", "quantifier": "every list of records: any number of records, any known version, any header list without newlines/colons in names, any content bytes (including bytes that look like WARC headers)", "why_tests_cant": "A test fixes a handful of payloads and header sets; payload bytes are arbitrary and may imitate record boundaries, and the number of records is unbounded.", "anchors": ["hanzo/warctools/warc.py:WarcRecord._write_to", "hanzo/warctools/warc.py:WarcParser.parse", "hanzo/warctools/stream.py:RecordStream"]}
{"id": "C02", "title": "Reported offsets are exact record starts", "statement": "For an uncompressed archive produced by write_to, read_records(offsets=True) reports for the i-th record the exact byte position where that record's version line starts, and for the final (None) entry the length of the file.", "quantifier": "every list of well-formed records", "why_tests_cant": "The offset is a sum over all preceding records and terminators; tests check two records.", "anchors": ["hanzo/warctools/stream.py:RecordStream._read_record", "hanzo/warctools/warc.py:WarcParser.parse"]}
{"id": "C03", "title": "Random access by offset", "statement": "Opening the archive, seeking to the offset that was reported for record i and reading one record yields record i, with the same headers, content and offset as a sequential scan.", "quantifier": "every archive of well-formed records and every index i", "why_tests_cant": "Needs to hold for every record position in every archive.", "anchors": ["hanzo/warctools/stream.py:RecordStream.seek", "hanzo/warcextract.py:main"]}
{"id": "C04", "title": "content_file never reads past the payload", "statement": "After a record that announces a payload of n bytes has been returned (WARC or ARC, from a stream opened in any way and used in any way before), any sequence of content_file.read(k), read(), readline(k), readline(), readinto(buffer) calls with non-negative sizes returns consecutive pieces of the file that stay inside the n payload bytes; their concatenation is a prefix of the payload, and once n bytes were returned every further call returns b''. An ARC record without a readable length has no end: the calls run on to the end of the file.", "quantifier": "every file contents, every record class and way of opening, every history of the stream, every announced length, every finite sequence of read calls", "why_tests_cant": "Quantifies over all call histories and all sizes.", "anchors": ["hanzo/warctools/stream.py:RecordStream.read", "hanzo/warctools/stream.py:RecordStream.readline", "hanzo/warctools/stream.py:RecordStream.readinto"]}
{"id": "C05", "title": "Next record does not depend on how the previous content was consumed", "statement": "Whatever sequence of non-negative reads (none, partial, complete) a caller makes on a record's content_file, the next call of read_records gives the same result (offset, record, errors, or exception) as if the content had not been touched, provided the payload is completely in the file.", "quantifier": "every stream opened in any way (WARC, ARC, mixed) after any history, every record with a complete payload, every finite sequence of read calls", "why_tests_cant": "All histories of reads, all chunk alignments with respect to the 8192 byte skip buffer.", "anchors": ["hanzo/warctools/stream.py:RecordStream._skip_to_eoc", "hanzo/warctools/stream.py:RecordStream._read_record"]}
{"id": "C06", "title": "Any run of CR/LF terminator lines between records is tolerated", "statement": "Between two records, any bytes consisting only of CR and LF and ending in LF (including none beyond the writer's own) are skipped: the following record is parsed identically and its reported offset is the position just after the terminator bytes.", "quantifier": "every terminator made of \\r and \\n ending in \\n, every following bytes", "why_tests_cant": "The set of terminators is infinite; tests list fifteen.", "anchors": ["hanzo/warctools/stream.py:RecordStream._read_record"]}
{"id": "C07", "title": "Crash safety of reading: complete records survive truncation", "statement": "If an uncompressed archive of well-formed records is cut at any byte position, scanning the cut file still yields every record whose head and payload lie completely before the cut, unaltered, with its offset, in order, before any end, error or exception is reported, whatever is read of the contents on the way.", "quantifier": "every archive, every cut position", "why_tests_cant": "Every crash point must be considered.", "anchors": ["hanzo/warctools/stream.py:RecordStream", "hanzo/warctools/warc.py:WarcParser.parse"]}
{"id": "C08", "title": "Truncated payload is always detected", "statement": "If the file ends before the payload of the last returned record is complete, the next read_records / iteration step raises an exception instead of reporting a clean end, no matter how much of the payload was consumed before, and keeps raising on every retry.", "quantifier": "every file and record class, every announced length larger than the remaining bytes, every history, every sequence of non-negative reads before", "why_tests_cant": "Every crash point and every read history.", "anchors": ["hanzo/warctools/stream.py:RecordStream._skip_to_eoc"]}
{"id": "C09", "title": "Reading a WARC record terminates, with one exception", "statement": "For every file contents, reading a WARC record returns a record, returns an entry without record, or raises, after finitely many steps, with exactly one exception: if the version line is followed by a header block with a line that is neither blank nor 'name: value' nor (after a field) a continuation line, the call loops for ever. A scan of a file without such a block ends.", "quantifier": "every byte string as file contents, every number of loop rounds", "why_tests_cant": "Non-termination cannot be observed by a finite test run and depends on every possible line of the input.", "anchors": ["hanzo/warctools/warc.py:WarcParser.parse"]}
{"id": "C10", "title": "Unknown WARC versions raise TypeError", "statement": "A record whose version line is WARC/<number> with a number outside {1.0, 0.17, 0.18} cannot be read: reading it raises TypeError, whatever the number and whatever follows. (The intended entry in record.errors is never made.)", "quantifier": "every version number string, every following bytes, every CR/LF bytes before", "why_tests_cant": "Infinite set of version strings.", "anchors": ["hanzo/warctools/warc.py:WarcParser.parse"]}
{"id": "C11", "title": "Resynchronisation over junk lines", "statement": "Up to five non-blank junk lines before a version line are skipped and recorded in order as ('ignored line', line) in the errors of the record that follows; its reported offset is the start of the version line; with six or more junk lines the parser gives up and returns no record and the list of errors.", "quantifier": "every sequence of junk lines (not containing WARC/)", "why_tests_cant": "Unbounded line contents and interleavings with blank lines.", "anchors": ["hanzo/warctools/warc.py:WarcParser.parse", "hanzo/warctools/warc.py:bad_lines"]}
{"id": "C12", "title": "Record errors are reported exactly for malformed records", "statement": "A record that is returned has an empty errors list if and only if no junk line came before it, its version line has nothing but white space before WARC/ and ends in CRLF, every header line ends in CRLF with at least one byte between the first colon and the line end, every continuation line ends in CRLF and has a visible character, every Content-Type is non-empty and every Content-Length is an integer. (So the correct line 'Name:' CRLF is reported as an error.)", "quantifier": "every file contents from which a record is returned", "why_tests_cant": "Both directions quantify over all header blocks.", "anchors": ["hanzo/warctools/warc.py:WarcParser.parse", "hanzo/warcvalid.py:main"]}
{"id": "C13", "title": "Folded header lines are joined", "statement": "A header field continued on following lines that start with white space is returned as one header whose value is the stripped pieces joined by single spaces; the continuation lines create no further headers and no errors.", "quantifier": "every header name, value and list of continuation lines", "why_tests_cant": "Unbounded number and contents of continuation lines.", "anchors": ["hanzo/warctools/warc.py:value_rx", "hanzo/warctools/warc.py:WarcParser.parse"]}
{"id": "C14", "title": "get_header is the first case-insensitive match", "statement": "get_header(name) returns the value of the first header whose name equals name up to ASCII case, and None exactly when there is none.", "quantifier": "every header list and every name", "why_tests_cant": "All header lists and all casings.", "anchors": ["hanzo/warctools/record.py:ArchiveRecord.get_header"]}
{"id": "C15", "title": "set_header then get_header", "statement": "set_header(name, value) never changes what get_header returns for a name that differs from name other than in letter case; and get_header(name) then returns value, unless the record already has a header whose name differs from name in letter case only: if the first such header is spelled differently, get_header(name) still returns the old value.", "quantifier": "every header list, name and value", "why_tests_cant": "All header lists; the interaction with differently cased names is easy to miss.", "anchors": ["hanzo/warctools/record.py:ArchiveRecord.set_header"]}
{"id": "C16", "title": "content is read once and stays stable", "statement": "The first access to record.content returns (Content-Type header, payload bytes); all later accesses of content, content_type and content_length return the same values whatever happens to the stream, and content_length then equals the number of bytes of the content; if the first access raises, every later access raises.", "quantifier": "every WARC or ARC record and stream state, every later history", "why_tests_cant": "All histories of accesses.", "anchors": ["hanzo/warctools/record.py:ArchiveRecord.content", "hanzo/warctools/record.py:ArchiveRecord.content_length"]}
{"id": "C17", "title": "Tuple records can be written any number of times, content_file records once", "statement": "A record with a content tuple can be written any number of times, each time producing the same bytes; a record with a content_file (its own file, or the stream it was read from) can be written once and every later write_to raises without writing anything.", "quantifier": "every record and every number of writes", "why_tests_cant": "All records, all write histories.", "anchors": ["hanzo/warctools/record.py:ArchiveRecord.write_to"]}
{"id": "C18", "title": "Written Content-Length is the real length", "statement": "When a record with a content tuple is written, supplied Content-Type and Content-Length headers are ignored, and the written Content-Length header is the decimal length of the content; all other headers are written in order.", "quantifier": "every header list and content", "why_tests_cant": "All contents and header lists.", "anchors": ["hanzo/warctools/warc.py:WarcRecord._write_to"]}
{"id": "C19", "title": "Streaming a content_file copies exactly its bytes", "statement": "A record written from a content_file writes the supplied headers unchanged and then exactly the bytes of the content_file, whatever its size relative to the 8192 byte copy buffer; with a correct Content-Length header the result reads back as the same record.", "quantifier": "every header list and file contents", "why_tests_cant": "All sizes, in particular around buffer multiples.", "anchors": ["hanzo/warctools/warc.py:WarcRecord._write_to"]}
{"id": "C20", "title": "read_records(limit) yields a bounded prefix of the full scan", "statement": "read_records(limit=k) yields exactly the first k entries of read_records(limit=None) (all of them if there are fewer) and then ends normally if the limit was reached and like the full scan otherwise; nothing is yielded after an entry without a record.", "quantifier": "every stream and every limit", "why_tests_cant": "All streams and limits.", "anchors": ["hanzo/warctools/stream.py:RecordStream.read_records"]}
{"id": "C21", "title": "Iteration agrees with read_records", "statement": "Iterating a stream yields the records of read_records(limit=None) in order, ends silently when the final entry has no errors and raises when the final entry has errors.", "quantifier": "every stream", "why_tests_cant": "All streams.", "anchors": ["hanzo/warctools/stream.py:RecordStream.__iter__", "hanzo/warctools/stream.py:RecordStream.read_records"]}
{"id": "C22", "title": "Format detection is non-destructive", "statement": "is_gzip_file and guess_record_type leave the file position unchanged and their answer depends only on the bytes at that position.", "quantifier": "every file and position", "why_tests_cant": "All files and positions.", "anchors": ["hanzo/warctools/archive_detect.py:is_gzip_file", "hanzo/warctools/archive_detect.py:guess_record_type"]}
{"id": "C23", "title": "Format detection", "statement": "The format of a file is decided by its first line alone (of the decompressed data if it starts with the gzip magic): a line that contains WARC/ in any case, or an empty file or bare line feed, means WARC; otherwise a line that starts with filedesc:// means ARC; a file that is neither is refused with an exception. Hence every file that starts with a WARC version line is opened as WARC and every file that starts with a filedesc:// line without 'warc/' as ARC; a filedesc line that contains 'warc/' is opened as WARC.", "quantifier": "every first line", "why_tests_cant": "All first lines; ARC file names are arbitrary.", "anchors": ["hanzo/warctools/archive_detect.py:guess_record_type", "hanzo/warctools/stream.py:open_record_stream"]}
{"id": "C24", "title": "Record-compressed archives read like uncompressed ones", "statement": "Writing any list of well-formed records with gzip=True and reading the file back with automatic detection yields the same records as writing and reading uncompressed; writing to an existing compressed archive appends.", "quantifier": "every list of records, for any gzip codec in which decompression inverts compression member by member", "why_tests_cant": "All contents.", "anchors": ["hanzo/warctools/record.py:ArchiveRecord.write_to", "hanzo/warctools/stream.py:GzipRecordStream"]}
{"id": "C25", "title": "No offsets in compressed archives", "statement": "Entries read from a record-compressed archive never carry an offset: read_records(offsets=True) reports None for every record and for the final entry (the attribute the code looks for does not exist on CPython >= 3.5).", "quantifier": "every compressed archive, limit and number of records", "why_tests_cant": "All archives.", "anchors": ["hanzo/warctools/stream.py:GeeZipFile", "hanzo/warctools/stream.py:GzipRecordStream._read_record"]}
{"id": "C26", "title": "gzip='file' streams yield nothing", "statement": "A stream opened with gzip='file' never yields an entry and never ends normally: every attempt to read a record or to iterate raises (the class it uses does not exist) or does not return.", "quantifier": "every file contents", "why_tests_cant": "All files.", "anchors": ["hanzo/warctools/stream.py:GzipFileStream"]}
{"id": "C27", "title": "ARC round trip", "statement": "For an ARC file made of a filedesc record with a list of field names and data records with one space separated value per field (values made of non-blank runs that start and end with word characters), reading yields for each record the pairs (field name, value), the declared number of content bytes, and exact offsets.", "quantifier": "every list of field names, values and contents", "why_tests_cant": "All field lists and contents.", "anchors": ["hanzo/warctools/arc.py:ArcParser.parse", "hanzo/warctools/arc.py:ArcParser.parse_header_list"]}
{"id": "C28", "title": "ARC URL fencepost rule", "statement": "When the ARC header has URL as its first field followed by n-1 >= 1 others, a header line with extra spaces inside the URL still assigns the last n-1 values to the last n-1 fields and everything before to the URL; a line with too few values raises TypeError; if URL is the only field, the rule does not apply.", "quantifier": "every URL with embedded blanks and every list of remaining values", "why_tests_cant": "All URLs.", "anchors": ["hanzo/warctools/arc.py:ArcParser.parse_header_list"]}
{"id": "C29", "title": "ARC data without filedesc is refused", "statement": "Reading a data record with an ARC parser that has not yet seen a filedesc record raises; after a filedesc record the field names stay in force until the next filedesc.", "quantifier": "every file and every history", "why_tests_cant": "All histories of the parser state.", "anchors": ["hanzo/warctools/arc.py:ArcParser.parse"]}
{"id": "C30", "title": "Mixed archives", "statement": "With MixedRecord, each record whose first line starts with WARC is parsed by the WARC rules and each other non-blank one by the ARC rules, in any interleaving, and WARC records do not disturb the ARC field names in force.", "quantifier": "every interleaving of ARC and WARC records", "why_tests_cant": "All interleavings.", "anchors": ["hanzo/warctools/mixed.py:MixedParser.parse"]}
{"id": "C31", "title": "HTTP parsing does not depend on how the input is split, with four exceptions", "statement": "Feeding a text in any pieces has the same outcome (parser state, text given back, or exception) as feeding it in one piece, unless the text begins with an empty line, or has a gzip body with Content-Length, or announces a chunked body that does not begin with a chunk size line, or begins with two 100 responses; in these cases the outcome can depend on the split (for the first three a message is exhibited for which it does). In particular every well-formed message without these features can be fed in any pieces, whatever follows it.", "quantifier": "every text, every way to split it into pieces, requests and responses, every list of ignored headers", "why_tests_cant": "Exponentially many splits of unboundedly many messages.", "anchors": ["hanzo/httptools/messaging.py:HTTPMessage.feed", "hanzo/httptools/messaging.py:ChunkReader", "hanzo/httptools/messaging.py:LengthReader"]}
{"id": "C32", "title": "HTTP bytes are conserved", "statement": "In every state that feeds can lead to, a further feed moves bytes from its input to the message: get_message() followed by the returned leftover equals the previous get_message() followed by the input; over any pieces, message and leftover are exactly the input. The exception is a gzip body with Content-Length: it is replaced by the decompressed bytes, and what follows it in the same call is lost.", "quantifier": "every input, every split, every reachable parser state", "why_tests_cant": "All inputs.", "anchors": ["hanzo/httptools/messaging.py:HTTPMessage.feed_line", "hanzo/httptools/messaging.py:HTTPMessage.feed_length", "hanzo/httptools/messaging.py:HTTPMessage.get_message"]}
{"id": "C33", "title": "Chunked bodies are decoded", "statement": "For a message with Transfer-Encoding: chunked, get_body() returns the concatenation of the chunk data for every chunking of the body, chunk extensions and trailers included, the message is complete exactly after the final blank line and following bytes are returned as leftover.", "quantifier": "every list of non-empty chunks, extension texts and trailers, and every following bytes", "why_tests_cant": "All chunkings.", "anchors": ["hanzo/httptools/messaging.py:ChunkReader", "hanzo/httptools/messaging.py:HTTPMessage.get_body"]}
{"id": "C34", "title": "Content-Length bodies are exact", "statement": "For a message with Content-Length n (not chunked, not gzip), exactly n bytes after the header become the body, the message is complete exactly when they have arrived and the rest is returned.", "quantifier": "every n, every body, every following bytes", "why_tests_cant": "All lengths.", "anchors": ["hanzo/httptools/messaging.py:LengthReader", "hanzo/httptools/messaging.py:HTTPMessage.feed"]}
{"id": "C35", "title": "Close-delimited bodies", "statement": "A response with neither length nor chunking takes all bytes up to close() as body and is complete only after close().", "quantifier": "every body and every split", "why_tests_cant": "All bodies and splits.", "anchors": ["hanzo/httptools/messaging.py:HTTPMessage.feed", "hanzo/httptools/messaging.py:HTTPMessage.close"]}
{"id": "C36", "title": "Messages without body", "statement": "A response to HEAD, a response with code 1xx (other than 100), 204 or 304, and a request with neither length nor chunking, are complete right after the header whatever Content-Length or Transfer-Encoding they carry (a Content-Length that is not a number raises, C37), and following bytes are returned.", "quantifier": "every header list, every following bytes", "why_tests_cant": "All header lists and codes.", "anchors": ["hanzo/httptools/messaging.py:ResponseHeader.has_body", "hanzo/httptools/messaging.py:RequestHeader.has_body", "hanzo/httptools/semantics.py:Codes.no_body"]}
{"id": "C37", "title": "Framing precedence", "statement": "The body framing is decided by the header fields as follows: chunked if some Transfer-Encoding value contains 'chunked' (in any case), otherwise the first Content-Length, otherwise close-delimited; headers on the ignore list do not count; a Content-Length that is not a number raises ValueError exactly if it is the first of the fields that speak about the framing (one behind another Content-Length or behind a chunked Transfer-Encoding is not looked at).", "quantifier": "every header list", "why_tests_cant": "All header lists and orders (request smuggling style ambiguities).", "anchors": ["hanzo/httptools/messaging.py:HTTPHeader.add_header_line"]}
{"id": "C38", "title": "Truncated HTTP messages are never complete", "statement": "If a chunked or Content-Length message ends before it is complete (also within its header), then before and after close() complete() is False, nothing is given back, and after close() get_body() is the part of the body that did arrive.", "quantifier": "every message and every truncation point", "why_tests_cant": "Every truncation point.", "anchors": ["hanzo/httptools/messaging.py:HTTPMessage.close"]}
{"id": "C39", "title": "100 Continue", "statement": "Interim 100 responses in front of the final response are recorded and skipped: when each is fed by itself, everything fed afterwards in any pieces is parsed as if they had not been there; a single one can also be fed together with the response in any pieces (the list of ignored headers is then forgotten). Two interim responses in one call are not handled: the second is taken for the response.", "quantifier": "every interim and final response, every number of interim responses, every split", "why_tests_cant": "All combinations and splits.", "anchors": ["hanzo/httptools/messaging.py:ResponseMessage.feed"]}
{"id": "C40", "title": "HTTP feeding terminates, except on negative chunk sizes", "statement": "In every state that feeds can lead to, the next feed returns or raises after finitely many steps, unless the text contains a chunk size line with a negative number; a chunked message with a negative chunk size followed by any byte makes feed loop for ever.", "quantifier": "every reachable state and every input", "why_tests_cant": "Non-termination is not observable by a finite test.", "anchors": ["hanzo/httptools/messaging.py:ChunkReader.feed"]}
{"id": "C41", "title": "Decoded message re-parses to the same message", "statement": "get_decoded_message() of a complete message without content-encoding is a message whose body, when parsed again, equals get_body(), is complete without leftover, is not chunked and has the same start line and the same other headers; decoding again changes nothing.", "quantifier": "every complete message", "why_tests_cant": "All messages.", "anchors": ["hanzo/httptools/messaging.py:HTTPMessage.write_decoded_message", "hanzo/httptools/messaging.py:HTTPHeader.write_headers"]}
{"id": "C42", "title": "Decoded compressed messages carry the compressed length", "statement": "When get_decoded_message() decompresses the body, the Content-Length it writes is the length of the compressed body, not of the body it writes: parsing the result again cuts off a longer body (the rest is given back as leftover) and never completes on a shorter one.", "quantifier": "every message with a content-encoding, every pair of decompressors", "why_tests_cant": "All bodies.", "anchors": ["hanzo/httptools/messaging.py:HTTPMessage.write_decoded_message"]}
{"id": "C43", "title": "warcvalid accepts exactly the readable files", "statement": "warcvalid returns 0 exactly when every file can be opened and scanned to its end without exception, without parse errors and without record errors, and -1 otherwise; archives of well-formed records are accepted, and a file cut inside the payload of a record is rejected. A file cut after a header line of its last record, before any Content-Length, is however accepted. warcvalid ends unless a file contains a header block on which reading hangs (C09).", "quantifier": "every list of files, every cut position inside a payload or after a header line", "why_tests_cant": "All files, all truncation points.", "anchors": ["hanzo/warcvalid.py:main"]}
{"id": "C44", "title": "warcindex lists every record", "statement": "On archives of well-formed records, warcindex writes its heading and one line per record in file order with the file name, the record's offset (None in compressed files), type, url, id, content type and length, '-' standing for missing or empty values; the length is the number of payload bytes unless the record repeats its Content-Length header.", "quantifier": "every list of archives", "why_tests_cant": "All archives.", "anchors": ["hanzo/warcindex.py:main"]}
{"id": "C45", "title": "warcfilter partitions the archive", "statement": "For url, type, content-type, date and whole-record matching, warcfilter writes exactly the records that match and warcfilter -i exactly those that do not, each in order, so every record appears in exactly one of the two outputs, with the same version, content and header values. warcfilter -H does this among the HTTP responses only, and stops with an exception at the first HTTP record with a truncated message or trailing data (NameError) or response record without Content-Type (AttributeError).", "quantifier": "every list of archives of well-formed records, every pattern (as an arbitrary predicate on bytes)", "why_tests_cant": "All archives and patterns.", "anchors": ["hanzo/warcfilter.py:filter_archive"]}
{"id": "C46", "title": "warc2warc preserves records", "statement": "warc2warc without options (or with -Z) copies every record of its input files, which may have any bytes as long as they can be read without exception: reading the output yields the same records (version, headers, content) in the same order (up to the exception of C58), and running it again on its output reproduces it byte by byte. Six or more junk lines where a record should start make it raise after the records before them were written.", "quantifier": "every list of files that can be read", "why_tests_cant": "All archives.", "anchors": ["hanzo/warc2warc.py:main", "hanzo/warc2warc.py:process"]}
{"id": "C47", "title": "warc2warc -D never decodes", "statement": "warc2warc -D copies the records it does not have to decode, but the first record whose content is a complete HTTP response stops it with an AttributeError: the records before are written, nothing from that record on. The option --wget-chunk-fix has no effect.", "quantifier": "every list of archives of well-formed records, every position of the first decodable record", "why_tests_cant": "All archives.", "anchors": ["hanzo/warc2warc.py:process"]}
{"id": "C48", "title": "arc2warc preserves content and URL", "statement": "Over any list of well-formed files of ARC and WARC records, every ARC data record is converted to one WARC record with the same URL and content bytes, its content type (application/octet-stream if blank, application/http for HTTP responses), the IP address (unless 0.0.0.0), the date in WARC format and a record type (by configured prefixes first; otherwise, for a url starting with http, response if the content is exactly one complete HTTP response and resource if not, and response for any other url); a filedesc record becomes a warcinfo and a metadata record whose content is the filedesc text; WARC records are copied; the output, plain or compressed, reads back as exactly these records. A record with a bad date, missing content type or unparsable HTTP ends the whole run with an exception, with everything before it written; so does the first filedesc record when an output name is given (-o).", "quantifier": "every list of files and records, every transformer configuration, clock and hash function", "why_tests_cant": "All records.", "anchors": ["hanzo/arc2warc.py:ArcTransformer"]}
{"id": "C49", "title": "arc2warc links records to their warcinfo", "statement": "Every converted record names as WARC-Warcinfo-ID the WARC-Record-ID of the warcinfo record made for the latest preceding filedesc record that was converted; None before the first.", "quantifier": "every history of converted records", "why_tests_cant": "All histories.", "anchors": ["hanzo/arc2warc.py:ArcTransformer"]}
{"id": "C50", "title": "arc2warc record ids are a function of URL and date", "statement": "The record id of a converted data record is determined by its URL and date text alone (so conversion is reproducible). Records with dates of equal length that differ in URL or date get different ids, unless the first 16 bytes of the SHA-1 digests collide. Dates of different length can make different records collide for every hash function, since URL and date are joined without separator.", "quantifier": "every pair of ARC records, every hash function with 20-byte digests", "why_tests_cant": "All pairs; collisions are about every pair.", "anchors": ["hanzo/arc2warc.py:ArcTransformer.make_warc_uuid", "hanzo/warctools/warc.py:WarcRecord.warc_uuid"]}
{"id": "C51", "title": "warcextract prints the record's payload", "statement": "warcextract file offset writes exactly the payload bytes of the record at that offset, for every offset reported by a scan of an uncompressed file and every member offset of a compressed one; warcpayload does the same for records that are not HTTP responses, whatever the payload size. A response record without Content-Type makes warcpayload raise AttributeError.", "quantifier": "every archive, record and payload size", "why_tests_cant": "All archives, all positions.", "anchors": ["hanzo/warcextract.py:dump_record", "hanzo/warcpayload.py:dump_payload_from_stream"]}
{"id": "C52", "title": "WARC dates", "statement": "warc_datetime_str yields YYYY-MM-DDThh:mm:ssZ for every naive datetime, dropping fractions of a second; it is injective on whole seconds and ordered like time; ARC dates of 14 and 8 digits are converted to the same date and time. Aware datetimes are not converted to UTC, and 12-digit ARC dates are accepted and misread.", "quantifier": "every datetime, every ARC date", "why_tests_cant": "All dates.", "anchors": ["hanzo/warctools/warc.py:warc_datetime_str"]}
{"id": "C53", "title": "S3 range requests", "statement": "Opening an s3 url with offset and length asks for length+1 bytes from offset, so never exactly the requested ones unless the object ends there; with an offset only it asks for exactly the bytes from there on; the request goes to the named bucket and key. Whatever non-empty answer arrives, the call raises TypeError.", "quantifier": "every object, offset, length, bucket and key", "why_tests_cant": "All offsets and lengths.", "anchors": ["hanzo/warctools/s3.py:open_url"]}
{"id": "C54", "title": "Seeking repositions the reader relative to the unread payload", "statement": "After seek(offset) on an uncompressed stream whose last record has n unread payload bytes, the next record is looked for at offset + n; hence it is the one at offset when nothing was unread (fresh stream, or content consumed to its end), and an archive is exhibited where seeking back to the first record after reading only its head gives something else.", "quantifier": "every history of reads before the seek, every offset", "why_tests_cant": "All histories.", "anchors": ["hanzo/warctools/stream.py:RecordStream.seek"]}
{"id": "C55", "title": "Record builders set the mandatory headers", "statement": "make_response, make_request, make_metadata and make_conversion give records whose type, id, date and url accessors return the arguments, whose optional links are present exactly when given, and which round-trip through write_to and parsing.", "quantifier": "every argument values", "why_tests_cant": "All arguments.", "anchors": ["hanzo/warctools/warc.py:make_response", "hanzo/warctools/warc.py:make_request", "hanzo/warctools/warc.py:make_metadata", "hanzo/warctools/warc.py:make_conversion"]}
{"id": "C56", "title": "Unpacked files stay inside the output directory", "statement": "warcunpack_ia's output_file puts the payload (and every directory it makes) inside the output directory, provided that no directory part of the URL is '..' and that the normalised output path is at most 200 and not exactly 197 characters long. Without these provisos it is false: a URL with '..' reaches any directory, a 197-character output path lets a name starting with '..' escape, and an output path longer than 200 characters is cut.", "quantifier": "every URL", "why_tests_cant": "All URLs, adversarial ones included.", "anchors": ["warcunpack_ia.py:output_file"]}
{"id": "C57", "title": "Negative sizes and lengths run past the payload", "statement": "content_file.read(-1) and readline(-1) (Python's 'no limit') are not confined to the payload: read(-1) returns everything to the end of the file, readline(-1) the line even beyond the payload. A record that announces the length -1 has everything up to the end of the file as its content; with a smaller negative length asking for the content raises ValueError; if it is not asked for, the next record is looked for right behind the head.", "quantifier": "every payload and following bytes", "why_tests_cant": "All states.", "anchors": ["hanzo/warctools/stream.py:RecordStream.read", "hanzo/warctools/stream.py:RecordStream.readline"]}
{"id": "C58", "title": "Records read without errors can be rewritten", "statement": "Any record that a scan of an arbitrary WARC file reports without errors and with a length is accepted by the writer's own rules: writing it and reading the result back gives the same version, headers and content. The one exception is a folded header whose first line is empty: its value then starts with a blank, which the second reading strips.", "quantifier": "every file, every record read from it", "why_tests_cant": "Ranges over all files, including damaged ones, not only over files this library wrote.", "anchors": ["hanzo/warctools/warc.py:WarcParser.parse", "hanzo/warctools/warc.py:WarcRecord._write_to", "hanzo/warc2warc.py:main"]}
{"id": "C59", "title": "S3 listings are complete", "statement": "Expanding a list of file names leaves ordinary names alone and replaces s3://bucket/prefix by the name of every key with that prefix, each exactly once and in order, however the server divides the listing into pages; the names lead back to the keys, except for keys with '?' or '#', whose names lead to another key.", "quantifier": "every bucket content, every division into pages, every list of names", "why_tests_cant": "All buckets and all paginations.", "anchors": ["hanzo/warctools/__init__.py:expand_files", "hanzo/warctools/s3.py:list_files"]}
{"id": "C60", "title": "Unpacking never overwrites a file", "statement": "The path that warcunpack_ia's output_file returns did not exist before the call, whatever names are already taken in the output directory.", "quantifier": "every URL, mime type, output directory, file system contents and sequence of UUIDs", "why_tests_cant": "All file system states and names.", "anchors": ["warcunpack_ia.py:output_file"]}
{"id": "C61", "title": "The tools always end", "statement": "warcvalid, warcindex, warcfilter, warc2warc, warcextract, warcpayload and arc2warc come to an end (return or raise) on every input, and the rounds of their loops are bounded by the number of bytes of the file, with exactly two kinds of exception: a file that contains a WARC version line followed by a header block with a line that is neither blank nor a field nor a continuation (every tool loops for ever there), and, for the tools that parse HTTP (warcfilter -H, warc2warc -D, arc2warc), a file that contains a line announcing a chunk of negative size.", "quantifier": "every contents of every file (plain, gzip, damaged gzip), every option and list of names, every record parser", "why_tests_cant": "Non-termination cannot be observed by a test, and all file contents are quantified over.", "anchors": ["warctools/stream.py:read_records", "warctools/stream.py:_read_record", "warctools/stream.py:_skip_to_eoc", "warctools/warc.py:WarcParser.parse", "warctools/arc.py:ArcParser.parse", "warctools/mixed.py:MixedParser.parse", "warctools/warc.py:_write_to", "warcvalid.py:main", "warcindex.py:main", "warcfilter.py:filter_archive", "warc2warc.py:main", "warcextract.py:main", "warcpayload.py:main", "arc2warc.py:main"]}
{"id": "C62", "title": "feed_predict never asks for too much; feed_fd takes exactly one message", "statement": "Whatever has been fed so far, text of the kind and amount that feed_predict() asks for (a line, at most so many bytes, everything) is never given back by feed() (gzip bodies with Content-Length excepted). Hence feed_fd on an object with a readLine method reads a well-formed message that says where it ends and not one byte of what follows. It never returns, however, when the message is cut short or its body ends with the connection, and on ordinary Python files and sockets (which have readline, not readLine) it raises AttributeError before reading anything.", "quantifier": "every state reachable by feeding any texts; every well-formed request or response, every continuation of the input, every truncation", "why_tests_cant": "All parser states, all messages, and non-termination.", "anchors": ["hanzo/httptools/messaging.py:HTTPMessage.feed_predict", "hanzo/httptools/messaging.py:HTTPMessage.feed_fd", "hanzo/httptools/messaging.py:ChunkReader.feed_predict"]}
{"id": "C63", "title": "The HTTP/0.9 fallback has everything that was fed", "statement": "A response parser fed in any pieces without an exception and then turned into an HTTP/0.9 response has as its body, message and decoded message everything that has been and will be fed, and is complete after close() and not before. But when the text begins with a line that is not a status line, feed() raises ValueError and the fallback has that line only: the rest of the text is lost; exactly the lines with a first word followed by a number are accepted.", "quantifier": "every text, every division into pieces, every first line", "why_tests_cant": "All texts, all divisions.", "anchors": ["hanzo/httptools/messaging.py:ResponseMessage.as_http09", "hanzo/httptools/messaging.py:HTTP09Response", "hanzo/httptools/messaging.py:ResponseHeader.set_start_line"]}
{"id": "C64", "title": "What a request asks for", "statement": "For every well-formed request, fed in any pieces, target_uri, host, port and scheme are determined by the request line and the Host fields: CONNECT host:port gives host and port; an absolute http(s) URL is taken apart into scheme, host, port number (80 if none) and path; any other target is kept. The last Host field then replaces the host, and the last one with a colon the port (as text), so that the host of one and the port of the other can be mixed. The decoded form of a request with an absolute URL names the path only; if the path is empty it raises TypeError. The url property shows bytes literals instead of the URL, for ordinary targets with and without a port and for absolute URLs.", "quantifier": "all well-formed requests (any method, target, version, header fields, body), all splits of the input, any following bytes", "why_tests_cant": "The request line is taken apart by a backtracking pattern and combined with any number of Host fields; tests try a few URLs.", "anchors": ["hanzo/httptools/messaging.py: url_rx, RequestHeader.set_start_line, RequestHeader.add_header, RequestHeader.url, RequestHeader.write_decoded_start"]}
{"id": "C65", "title": "What a message says about the connection", "statement": "After any well-formed message has been fed, in any pieces, keep_alive is true exactly when the last Connection field (not on the ignore list) that contains keep-alive or close contains keep-alive (false when there is none, also for HTTP/1.1), and expect_continue is true exactly when some Expect field not on the ignore list contains 100-continue, all in any letter case.", "quantifier": "all well-formed requests and responses, all ignore lists, all splits of the input, any following bytes", "why_tests_cant": "The flags depend on the order of any number of fields and on the ignore list.", "anchors": ["hanzo/httptools/messaging.py: HTTPHeader.add_header_line, keep_alive, expect_continue"]}
{"id": "C66", "title": "warcdump shows every record or gives up", "statement": "For every file that can be opened, warcdump prints one block per record that reading the file gives, in file order: name and offset, the headers, the content type, the number of content bytes and a preview; then the note or the errors at the end of the file. The first record without a Content-Type header or with parse errors ends the run with an exception (AttributeError, TypeError) after a part of its block, and nothing that follows is shown. The preview contains no control characters, line ends or non-ASCII bytes, has at most 4096 characters and depends only on the first 1024 bytes; it does not determine the content. warcdump ends unless a file has a header block on which every reader hangs. record.dump(content=False) does not touch the content.", "quantifier": "every contents of every file (plain, gzip, damaged), every list of names; every content for the preview", "why_tests_cant": "All file contents and all positions of an unusual record are quantified over; the escaping must hold for every byte string.", "anchors": ["hanzo/warctools/record.py:ArchiveRecord.dump", "hanzo/warctools/record.py:strip", "hanzo/warcdump.py:dump_archive", "hanzo/warcdump.py:main"]}
{"id": "C67", "title": "Damaged compressed archives are noticed and lose nothing before the damage", "statement": "If a compressed archive is cut anywhere inside a gzip member (a crash while writing, an interrupted copy), reading what is left gives a first part of the records of the whole archive, each with the same headers, errors and content, and then raises the exception of the decompressor, or it goes exactly as for the whole archive and then ends with an exception, an error entry or a hang, never as a complete archive ends. For an archive of well formed records the exception always comes, and every record that lies in the complete members is returned; with one member per record, cutting the member of record i gives records 0..i-1, and record i only if it is complete. Whatever the bytes, iterating over damaged compressed data never ends normally, read_records can only end in an entry with errors, and warcvalid rejects the file.", "quantifier": "every list of members with any contents, every cut point inside a member, every record class, detected or given compression; every compressed file whose decompression ends in an exception", "why_tests_cant": "Every cut point of every archive, every distribution of records over members and every content of the file are quantified over; tests cut a few files.", "anchors": ["hanzo/warctools/stream.py:GzipRecordStream", "hanzo/warctools/stream.py:RecordStream._read_record", "hanzo/warctools/stream.py:RecordStream.read_records", "hanzo/warctools/stream.py:RecordStream.__iter__", "hanzo/warcvalid.py:main", "hanzo/warctools/archive_detect.py:guess_record_type"]}
{"id": "C68", "title": "Other ways to write an HTTP message mean the same", "statement": "A message written with bare line feeds in place of CRLF in its head and trailers, with white space before and behind the colons of its fields and at the end of lines, with the space before an empty reason phrase missing, or with field values continued on lines that begin with a space or a tab (joined with single spaces), is read as the same message as in its plain form: same fields, trailers, start line, body, text left over and decoded form; get_message gives the text as written. A field line without a colon raises ValueError; a continuation line directly behind the start line raises IndexError; a request line of fewer than three words, a CONNECT target without exactly one colon and a status line without a numeric code raise ValueError, however the text is split.", "quantifier": "every well formed request or response, every layout of it, every text behind it, every split into pieces; every refused line, whatever precedes and follows it", "why_tests_cant": "All layouts, all messages and all splits are quantified over; tests try a few spellings in one piece.", "anchors": ["hanzo/httptools/messaging.py:HTTPHeader.add_header_line", "hanzo/httptools/messaging.py:HTTPHeader.add_trailer_line", "hanzo/httptools/messaging.py:RequestHeader.set_start_line", "hanzo/httptools/messaging.py:ResponseHeader.set_start_line", "hanzo/httptools/messaging.py:HTTPMessage.feed"]}
{"id": "C69", "title": "warcunpack_ia on Python 3 unpacks nothing, and empties its log", "statement": "Whatever the archive contains, the record loop of warcunpack_ia writes no file and counts no collision: each record is skipped or makes a str meet a bytes value, and that exception is caught. With file names on the command line the tool never gets as far as an archive: it opens the log file of the first name, which empties that file, and raises TypeError when it prints the heading (OSError if the log cannot be opened); every other file keeps its contents. An archive given as its own log file is lost.", "quantifier": "every archive, every reading position, every output directory, default name and list of names, every state of the disk", "why_tests_cant": "That no input at all is unpacked is a statement about all archives and disks; a test that writes no file shows one.", "anchors": ["warcunpack_ia.py:main", "warcunpack_ia.py:unpack_records", "warcunpack_ia.py:parse_http_response", "warcunpack_ia.py:log_headers"]}
{"id": "C70", "title": "warclinks resolves relative links as RFC 3986 says, within limits", "statement": "For a base scheme://host/dirs/file?query#fragment with plain directory names, get_abs_links turns every relative link whose dot segments are all leading ('../' or './'), whose rest does not begin with a slash behind them and which has a path, into the target of RFC 3986 section 5.2, without fragment, in order. Otherwise it does not: a scheme in front of a link without host is ignored, so mailto:x is resolved like x; links with a host are returned as they are, also //host/path, which gets no scheme; a link that is only a query or a fragment leads to the directory of the base instead of the base.", "quantifier": "every base and every list of links of the described forms, every host check", "why_tests_cant": "All bases, depths of directories, numbers and orders of leading dot segments and rests are quantified over; tests resolve a few.", "anchors": ["hanzo/warclinks.py:LinkParser.get_abs_links"]}
{"id": "C71", "title": "warclinks collects the link attributes of all start tags in order", "statement": "After any sequence of start tags the collected links are exactly the non-empty values of the link attributes of the known elements, in document order and with repetitions, and the base is the last non-empty href of a base element anywhere in the document, or else the address of the document. From meta elements the pieces url=... between semicolons of content are taken, without white space, but only up to a second '=', and a piece with a blank in front of url, the usual way to write it, is not found.", "quantifier": "every address, every sequence of start tags with any attributes (also without value, empty, repeated)", "why_tests_cant": "Every document is quantified over; tests parse a few.", "anchors": ["hanzo/warclinks.py:LinkParser.handle_starttag", "hanzo/warclinks.py:attr_extractor", "hanzo/warclinks.py:meta_extractor", "hanzo/warclinks.py:LinkParser.base_extractor"]}
{"id": "C72", "title": "warclinks yields nothing on Python 3", "statement": "Whatever the archive contains, and whatever links the HTML parser would find, extract_links_from_warcfh yields no link on Python 3: every response record makes a str meet a bytes value, which is logged.", "quantifier": "every archive, reading position and link extractor", "why_tests_cant": "The claim is about all archives.", "anchors": ["hanzo/warclinks.py:extract_links_from_warcfh", "hanzo/warclinks.py:parse_http_response"]}
{"id": "C73", "title": "Records used after the next one was read", "statement": "If a record was returned by the stream and its content not touched before the next record was returned, then asking it for its content gives the payload of the current record together with the content type of the earlier one; the current record's content is empty afterwards and the next record is read as if nothing had happened. Written to a file at that moment, the earlier record gets its own headers with the foreign payload. A program that first reads all records of an archive and only then asks for their contents gets the right headers and an empty content for every record.", "quantifier": "every two records read at different moments from a stream in any reachable state, every complete payload; every archive of any number of well-formed records", "why_tests_cant": "The mix-up depends on the order of calls on two objects that share a stream; tests read each record before the next one.", "anchors": ["hanzo/warctools/record.py:ArchiveRecord.content", "hanzo/warctools/record.py:ArchiveRecord.content_file", "hanzo/warctools/stream.py:RecordStream.read", "hanzo/warctools/stream.py:RecordStream._read_record"]}
{"id": "C74", "title": "Seeking in a compressed archive works only before anything was read", "statement": "On a record-compressed archive, seek to the beginning of a record's gzip member leads to that record if nothing has been read from the stream before. After at least one record has been read, whatever was read of its content, it does not: the remaining records whose members the decompressor has already taken from the file are returned first, and in a file of at most 8192 bytes these are all remaining records, after which the records from the requested one on follow (so records are returned twice). This answers the comment in the code ('does it always work?').", "quantifier": "every well-formed compressed archive of any number of records, every number of records read before with any reads of their contents, every amount of read-ahead, every requested record", "why_tests_cant": "The outcome depends on how far the decompressor has read ahead and on the history of the stream.", "anchors": ["hanzo/warctools/stream.py:GzipRecordStream.seek", "hanzo/warctools/stream.py:GzipRecordStream.__init__", "hanzo/warctools/stream.py:GzipRecordStream._read_record"]}
{"id": "C75", "title": "Several HTTP messages on one connection", "statement": "Several messages sent one after the other on one connection are taken apart as documented: feed what arrives to a parser, hand what it leaves unused to a new parser. Whatever the messages and however the bytes are cut into pieces, exactly these messages are found, in order and with their own contents; at any moment the finished ones are exactly those whose text has arrived completely, and nothing is taken from the next one. A last response without a length takes everything that follows and is complete after close().", "quantifier": "any number of well-formed messages of any kind and framing, every way of cutting their bytes into pieces, every moment in between", "why_tests_cant": "The number of messages, their lengths and the cut points are unbounded; a message boundary may lie anywhere in a piece.", "anchors": ["hanzo/httptools/messaging.py:HTTPMessage.feed", "hanzo/httptools/messaging.py:HTTPMessage.close", "hanzo/httptools/messaging.py:ResponseMessage.feed"]}
{"id": "C76", "title": "The raw form of an ARC file header is what is in the file", "statement": "raw() of the filedesc record that has just been read gives the bytes of this record exactly as they are in the file: the first line and as many bytes behind it as the record declares, nothing changed, left out or added; the stream then stands right behind them. Calling raw() again gives the same bytes, whatever was done with the stream in between. (arc2warc stores these bytes in the metadata record, so the header of the ARC file is preserved.)", "quantifier": "every stream reached by any history of use (ARC or mixed parser, plain or record-compressed), an unread payload of any size before the record, any blank lines before it, every filedesc record whose declared length covers its lines and is present in the file", "why_tests_cant": "The lines, the payload, the blank lines and the history of the stream are arbitrary.", "anchors": ["hanzo/warctools/arc.py:ArcRecordHeader.raw", "hanzo/warctools/arc.py:ArcParser.parse", "hanzo/arc2warc.py:ArcTransformer.convert_filedesc"]}
{"id": "C77", "title": "Writing to a device that becomes full", "statement": "write_to a device that becomes full, wherever: it raises OSError and the device then contains the first bytes, as many as it has room for, of exactly what an ordinary file would have received; if everything fits nothing differs. After any number of records were written in this way, every record that fits completely can be read back, unaltered and at its place. A record whose content is a (type, bytes) pair can be written again after the failure. A record with a content file is not marked as used by the failure: a second write_to does not raise but silently writes its headers with only that part of the payload that had not yet been taken (the payload is taken in blocks of 8192 bytes).", "quantifier": "every record, every payload, every capacity of the device (that is every byte position at which writing fails), any number of records", "why_tests_cant": "The point of failure may be any byte position of any record; the payload is of any size.", "anchors": ["hanzo/warctools/warc.py:WarcRecord._write_to", "hanzo/warctools/record.py:ArchiveRecord.write_to"]}
{"id": "C78", "title": "Records cannot be written through a record stream", "statement": "RecordStream.write(record) never writes anything and never changes the stream. For every WARC record it raises (AttributeError, as the stream is passed where a file is needed; or the complaint about a used content file) and leaves the record as it was. For an ARC record it raises if the content file was used before (or the record has no such attribute); otherwise it returns although nothing was written, and a content file counts as used afterwards.", "quantifier": "every record in every state, every stream, whatever it already contains", "why_tests_cant": "The claim is about all records and all states of the stream and the record.", "anchors": ["hanzo/warctools/stream.py:RecordStream.write", "hanzo/warctools/record.py:ArchiveRecord.write_to"]}
{"id": "C79", "title": "What was read does not depend on what is appended later", "statement": "Whatever bytes an uncompressed file contains (WARC, ARC or mixed), everything a reader has obtained before coming to the end of the file stays the same when the file is extended by any further bytes: a scan of the longer file sees every record that was followed by another one in the shorter file unaltered, at the same place, with the same headers, errors, offset and the same results of every call on its content file; exceptions raised before the end are raised as well. Equivalently: cutting any file costs no record but those cut, and alters at most the last one left. The same holds for gzip members appended to a compressed archive.", "quantifier": "all file contents, all appended bytes or members, all classes and opening modes, all sequences of calls on the content files, all reader states", "why_tests_cant": "files, appended bytes and call sequences are unbounded; a reader that looks ahead (a line read across the end, a buffer too large) would be wrong only for particular sizes", "anchors": ["hanzo/warctools/stream.py: _read_record, read, readline, _skip_to_eoc", "hanzo/warctools/warc.py: WarcParser.parse", "hanzo/warctools/arc.py: ArcParser.parse", "hanzo/warctools/mixed.py: MixedParser.parse"]}
{"id": "C80", "title": "Random access by reported offset works in every file", "statement": "Whatever bytes an uncompressed file contains, every record that reading it as WARC returns is reported with an offset, and going back to that offset (stream.seek, or opening the archive again with offset=) reads the same record again: same version, headers and payload, and from there on a scan sees exactly what the first scan saw after that record, whatever the programs read from the content files. Only complaints about bytes in front of the record are missing the second time. In particular warcextract with an offset reported by a scan writes exactly the content which the scan read, also for damaged files with junk, prefixes, odd newlines or missing ends.", "quantifier": "all file contents, all records of all scans, all sequences of calls on the content files, both ways of going to the offset, class given or guessed", "why_tests_cant": "file contents, numbers of records and read sequences are unbounded; an offset that is wrong only after an ignored line, a prefix or extra blank lines leads to another record or to none", "anchors": ["hanzo/warctools/stream.py: _read_record, read_records, seek, open_record_stream", "hanzo/warctools/warc.py: WarcParser.parse", "hanzo/warcextract.py: main, dump_record"]}
{"id": "C81", "title": "An archive inside a larger file", "statement": "What stands in front of the reader's position never influences what is read: opening a file at an offset (open_archive(..., offset=k)) guesses class and compression from the bytes at the offset on, exactly as for a file consisting of those bytes only, and fails exactly if that fails; every entry, every error, every result of a call on a content file and the way the scan ends are the same, and only the reported offsets are greater by k. This holds for WARC, ARC and mixed readers, whatever the contents.", "quantifier": "all file contents and prefixes, all classes, compressed or not, all opening modes, all reader states, all sequences of calls on the content files", "why_tests_cant": "contents and prefixes are unbounded; absolute positions used where relative ones are meant (or a detection that rewinds to the start) show only for particular prefixes", "anchors": ["hanzo/warctools/stream.py: open_record_stream, _read_record, read, readline", "hanzo/warctools/archive_detect.py: is_gzip_file, guess_record_type", "hanzo/warctools/warc.py: WarcParser.parse", "hanzo/warctools/arc.py: ArcParser.parse", "hanzo/warctools/mixed.py: MixedParser.parse"]}
{"id": "C82", "title": "Concatenated archives", "statement": "Concatenating WARC files concatenates what is read (cat a.warc b.warc). If a program has read the records of any file A that ends in a newline, with any calls on the content files and without having come to the end of the file, and is then told that there are no more records and no errors, then in A followed by any bytes B it sees the same records of A and then exactly what it would have seen in B alone (records, errors, exceptions, endless loops), with the offsets shifted by the length of A. The same holds for concatenated gzip members, and after every well formed archive.", "quantifier": "all contents A (also damaged) and B (arbitrary), all numbers of records, all sequences of calls on the content files, uncompressed and compressed files", "why_tests_cant": "contents and numbers of records are unbounded; parser state or look-ahead carried over the junction would show only for particular endings", "anchors": ["hanzo/warctools/stream.py: _read_record, read_records, _skip_to_eoc", "hanzo/warctools/warc.py: WarcParser.parse"]}
{"id": "C83", "title": "What the record attributes say", "statement": "record.type, date, url and id are the values of the first header of that name in any letter case (WARC-Type, WARC-Date / Archive-date, WARC-Target-URI / URL, WARC-Record-ID), None without one; ARC records have the fixed type response, ARC file headers filedesc. content_type and content_length answer from the content if it is known (supplied or already read), otherwise from the first header of that name without touching the content (ValueError if the length is not a number), and read the content only when there is no such header. For a record just read with one numeric length header, the answers before and after reading the content are the same and the length is the number of bytes; exceptions: in an ARC file header the length counts the lines of the header too, and with several Content-Length headers content_length is what the first says while the payload is as long as the last says.", "quantifier": "all records of all three classes with all header lists, in all states (content supplied, unread, read, failed), all files", "why_tests_cant": "headers and states are unbounded; whether an attribute consumes the stream shows only in combination with what is read next", "anchors": ["hanzo/warctools/record.py: type, date, url, content_type, content_length, get_header", "hanzo/warctools/warc.py: WarcRecord.id", "hanzo/warctools/arc.py: ArcRecord.type, ArcRecordHeader.type"]}
{"id": "C84", "title": "The tools cannot read standard input on Python 3", "statement": "Without file names warc2warc, warcfilter, warcdump, warcextract and warcunpack_ia read sys.stdin. On Python 3 this fails for every input, also for the empty one: TypeError from the first line on (UnicodeDecodeError if it cannot be decoded; for warcunpack_ia io.UnsupportedOperation on a pipe), and nothing is written.", "quantifier": "all inputs as sequences of text lines, decodable or not, seekable or not, all options (bodies of the loops)", "why_tests_cant": "it must hold for every input; a test shows it for one", "anchors": ["hanzo/warctools/stream.py: _read_record", "hanzo/warcdump.py: main", "hanzo/warcextract.py: main", "hanzo/warc2warc.py: main", "hanzo/warcfilter.py: main", "warcunpack_ia.py: main"]}
{"id": "C85", "title": "The tools agree about what is a good archive", "statement": "Whatever the bytes of the input files: if warcvalid accepts them, and no record has a negative Content-Length or a header value beginning with a blank, then warc2warc (with or without -Z) ends normally, its output is accepted by warcvalid, is read as exactly the same records in the same order, and is reproduced byte by byte by a second warc2warc. Files that warcvalid rejects only because of line ends or junk between records are repaired: the copy is accepted and holds the same records. The output of arc2warc is accepted by warcvalid and left as it is by warc2warc. Exception (defect): a negative Content-Length is accepted by warcvalid but makes warc2warc raise.", "quantifier": "all input files of arbitrary bytes, plain or compressed, any number of them, wherever the output is stored", "why_tests_cant": "the claim connects two programs on every byte sequence accepted by one of them; tests only see chosen files", "anchors": ["hanzo/warcvalid.py: main", "hanzo/warc2warc.py: process", "hanzo/arc2warc.py: warcinfo_id, main", "hanzo/warctools/warc.py: WarcRecord._write_to, WarcParser.parse"]}
{"id": "C86", "title": "Asking for offsets changes nothing else", "statement": "read_records(offsets=True) and read_records(offsets=False) give the same records, errors and contents and end in the same way (normally, with the same exception, or never), whatever is read from the content files on the way; without offsets every offset is None. Iterating over the stream gives the same records too, and differs only in that errors in the final entry become an exception.", "quantifier": "all streams in all states: WARC, ARC and mixed parsers, plain and compressed, arbitrary bytes, all limits, all sequences of reads from the content files", "why_tests_cant": "must hold for all bytes and all reader states; a tell() that flushes or moves, or an offset used in a decision, would show only for particular positions", "anchors": ["hanzo/warctools/stream.py: read_records, __iter__, _read_record", "hanzo/warctools/warc.py: WarcParser.parse", "hanzo/warctools/arc.py: ArcParser.parse", "hanzo/warctools/mixed.py: MixedParser.parse"]}
{"id": "C87", "title": "From the index to the payloads, for every file", "statement": "On any files, whatever their bytes (junk, odd line ends, folded headers, errors at the end), that can be read without an exception, warcindex writes exactly one line per record a reader gets, in order, with its offset, fields and length. For an uncompressed file every line has an offset, and warcextract with that name and offset writes exactly the content of the record the line describes; so does warcpayload unless the record is an HTTP response. (Lengths must not be negative, and the first Content-Length must be a number.)", "quantifier": "all files of arbitrary bytes that can be read to their end, all records in them", "why_tests_cant": "file contents are unbounded; an index with wrong offsets on unusual line ends or after junk shows only on such files", "anchors": ["hanzo/warcindex.py: main", "hanzo/warcextract.py: main, dump_record", "hanzo/warcpayload.py: main, dump_payload_from_stream", "hanzo/warctools/stream.py: read_records, seek"]}
{"id": "C88", "title": "From HTTP messages to an archive and back", "statement": "For any sequence of well-formed HTTP requests and responses, each put in a record with make_request / make_response and written with write_to: reading the file gives, in order, a request and a response record for each exchange, with its ids, date and url, the response record referring to the request record; the content of each record, fed in any pieces to a new RequestMessage / ResponseMessage and closed, is complete and shows the start line, header fields, trailer fields and body of the message that was stored. warcvalid accepts the file, warc2warc reproduces it byte by byte, and warc2warc -Z followed by warc2warc gives it back.", "quantifier": "all lists of exchanges (any methods, fields, bodies, chunked or not or up to the end of the connection), all pieces in which contents are fed", "why_tests_cant": "messages, bodies and their number are unbounded, and a body may contain anything, including text that looks like a WARC record", "anchors": ["hanzo/warctools/warc.py: make_request, make_response, WarcRecord._write_to, WarcParser.parse", "hanzo/warctools/record.py: write_to", "hanzo/httptools/messaging.py: RequestMessage, ResponseMessage", "hanzo/warc2warc.py: main", "hanzo/warcvalid.py: main"]}
{"id": "C89", "title": "A damaged file loses nothing before the damage", "statement": "warc2warc, warc2warc -Z, warcfilter (any selection, with or without -i) and warcindex, given a list of files of which one - whatever its bytes, compressed or not - cannot be read to its end: the tool ends with the very exception a plain reader of that file gets, and its output consists of the copies (or index lines) of all selected records of the files before and of all selected records a reader gets from the damaged file, in order, followed by nothing, or, only if the decompressor raised in the middle of a record, by a first part of that record. In particular, from a compressed archive cut anywhere inside a member, warc2warc recovers every record that lies in the undamaged members.", "quantifier": "all file contents, all lists of readable files before and any files after, all search functions, all cuts; announced lengths not negative", "why_tests_cant": "the damage may be any bytes at any place", "anchors": ["hanzo/warc2warc.py: main, process", "hanzo/warcfilter.py: main", "hanzo/warcindex.py: main", "hanzo/warctools/stream.py: __iter__, read_records, _skip_to_eoc", "hanzo/warctools/record.py: write_to, content"]}
{"id": "C90", "title": "Converting with arc2warc twice is converting once", "statement": "arc2warc reproduces archives of well-formed WARC records record by record, whatever its settings, in plain or compressed form as asked for. So its own output, made from well-formed ARC and WARC files, compressed or not, is a fixed point: given to arc2warc again with any settings it comes out byte for byte, and asking for the other form (-Z or not) gives what asking for it in the first place would have given.", "quantifier": "all lists of well-formed ARC/WARC/mixed files, compressed in any division into members or not, all transformer settings, clocks and hash functions", "why_tests_cant": "archives, settings and the division into members are unbounded", "anchors": ["hanzo/arc2warc.py: ArcTransformer.convert, main", "hanzo/warctools/mixed.py: MixedRecord", "hanzo/warctools/record.py: write_to"]}
{"id": "C91", "title": "arc2warc on files with any contents", "statement": "Whatever bytes the given files hold - ARC, WARC or mixed records, plain or compressed, damaged, with missing, doubled or negative lengths: if arc2warc returns, every file was read to its end without an error and the output holds, in order, exactly what each record a reader gets from the files becomes (a WARC record is copied with its version, headers and content; an ARC record becomes a response, resource or other record with the identifier, date, type and content derived from its URL, date and payload; a filedesc record becomes a warcinfo and a metadata record). If it stops with an exception, the output holds the same for the files before and for a first part of the records of the current file, followed by at most the beginning of one more record (when compressing, in a last gzip member, see C121). Conversely, if every file can be read to its end, every record becomes something (its date can be parsed, an ARC record follows a filedesc record, ...) and no WARC record announces a negative length, arc2warc returns with exactly that in the output.", "quantifier": "all file contents, lists of files, transformer settings, clocks, hash functions, with and without -Z, all initial transformer states and outputs", "why_tests_cant": "the contents of the files are arbitrary bytes and their number is unbounded", "anchors": ["hanzo/arc2warc.py: ArcTransformer, main", "hanzo/warctools/mixed.py: MixedRecord", "hanzo/warctools/record.py: write_to, content"]}
{"id": "C92", "title": "warcpayload writes the body of an HTTP response", "statement": "For a response record of type application/http at the given offset of a plain or compressed file, warcpayload skips interim responses with code 100 and writes: the data of the chunks, without chunk lines and trailer, when the first Transfer-Encoding is chunked (in any case); otherwise as many bytes after the header as the first Content-Length says, or all there are if there are fewer, without an error; otherwise everything after the header; nothing for codes 1xx, 204 and 304 that are not chunked. On well-formed responses these are the bytes that hanzo.httptools' ResponseMessage shows as the body. If a chunked body ends too early it raises after having written the data that arrived in whole blocks of 8192 bytes; the rest of the data that arrived is lost. It always comes to an end, whatever the response looks like.", "quantifier": "all header fields, codes, versions, phrases, bodies, chunks, extensions and trailers within the line limits of http.client, all numbers of interim responses, all places where the body is cut, plain and compressed files", "why_tests_cant": "responses, chunk divisions and cut positions are unbounded; blocks of 8192 bytes can lie in any way relative to the chunks", "anchors": ["hanzo/warcpayload.py: dump_payload_from_stream, FileHTTPResponse"]}
{"id": "C93", "title": "warcpayload depends on nothing but the record's payload", "statement": "For every payload of an application/http response record there is one sequence of bytes, made of bytes of the payload in their order, that warcpayload writes, and one verdict (ends normally or raises), the same for every file that holds such a record, plain or compressed, at every offset, whatever stands before and behind the record. In particular no byte of a following record is ever written, even when a malformed response (negative chunk size) makes the client read beyond the record.", "quantifier": "all payloads, well-formed or not; all files, offsets, header fields and codecs", "why_tests_cant": "malformed responses and neighbouring records are unbounded; the claim compares all pairs of files", "anchors": ["hanzo/warcpayload.py: dump_payload_from_stream, FileHTTPResponse", "hanzo/warctools/stream.py: RecordStream.read, readline"]}
{"id": "C94", "title": "What a command line means", "statement": "A command line of warc2warc, warcfilter, warcdump, warcindex, warcvalid, warcextract, warcpayload, arc2warc, warcunpack_ia and warclinks is accepted exactly if it consists, in any order, of operands, clusters of one-letter options (the last of which may take a value, attached or as the next argument) and long options (spelled out or abbreviated unambiguously, value after = or as the next argument), and possibly -- followed by operands. The settings and operands are those of the items in their order. If the first argument that does not fit asks for help, the help text is printed and the status is 0; any other command line ends with status 2, writes nothing and opens no file. An accepted command line does what the options say whatever their order: warc2warc copies, compressing exactly if -Z was given; warcfilter searches what the first of -U -T -C -H -D names with the first operand as pattern; warcextract file offset and warcpayload file:offset[,length] show the record at that offset (the name may contain colons). Defects: warc2warc ignores -o, and all tools ignore -l, -I and -L; a negative offset of warcextract is taken for an option; warcpayload without operand raises IndexError.", "quantifier": "all lists of arguments, all tables of options without doubled names, all file names, patterns and offsets, all files of well-formed records", "why_tests_cant": "command lines and abbreviations are unbounded and mix in any order", "anchors": ["hanzo/warc2warc.py: parser, main", "hanzo/warcfilter.py: parser, main", "hanzo/warcdump.py: parser, main", "hanzo/warcindex.py: parser, main", "hanzo/warcvalid.py: parser, main", "hanzo/warcextract.py: parser, main", "hanzo/warcpayload.py: parser, main", "hanzo/arc2warc.py: parser, main"]}
{"id": "C95", "title": "Where warcunpack_ia puts the file of a URL", "statement": "output_file(output_dir, 'scheme://part/.../part/name', mime_type, default_name) makes the directory output_dir/scheme/part/.../part (empty parts and '.' left out, every character other than letters, digits, '_', '-' and '.' replaced by '_', the whole path cut to 200 characters) and gives the first unused name in it among stem+ext, stem+'_R'+uuid+ext for successive UUIDs; ext is the extension of the mime type if it has one, else the URL's own extension (from the last dot on, if something other than dots comes before it), else '.html' if there is no mime type; the stem is the rest of the name (or the default name if the URL ends in '/'), cut so that name and extension have 45 characters. The collision flag says whether a UUID was needed.", "quantifier": "all absolute output directories in normal form, schemes without ':', lists of parts other than '..', names, mime types, default names without '/', sets of existing files, UUID sequences, numbers of collisions", "why_tests_cant": "names, cuts, dots and collisions combine without bound", "anchors": ["warcunpack_ia.py: output_file"]}
{"id": "C96", "title": "The arc2warc command from arguments to output", "statement": "arc2warc [options] name ... without -o, --resource and --response converts the files as in C48 and writes the records to standard output, compressed with -Z, with exit status 0 and without touching the disk; the warcinfo records hold the lines software, hostname, description, operator, publisher and audience with the values of the options (the last of each). With -o the records are appended to that file instead (created if missing, compressed with -Z or a name in .gz), which works for files of WARC records only: an ARC file ends the command with TypeError and the beginning of a warcinfo record in the file. --resource and --response cannot be used: the first data record ends the command with TypeError. Without operands the exit status is 2, but a file named with -o has been created.", "quantifier": "every argument list, every list of well-formed ARC, WARC or mixed files, every state of standard output and disk, clock and hash function", "why_tests_cant": "The space of argument lists and archives is unbounded; the failures depend on the combination of an option with the kind of the first record.", "anchors": ["hanzo/arc2warc.py: main, warcinfo_fields, parser"]}
{"id": "C97", "title": "The commands warclinks and warcunpack_ia end to end", "statement": "warclinks prints no link, whatever the files hold; a file that cannot be opened or cannot be gone through (read_records raises; an exception while reading the content of a record is not enough) does not keep the other files from being read, and the exit status is minus the number of such files modulo 256, so that it is 0 exactly if that number is a multiple of 256 (defect: 256 missing files look like success). Any file that a reader reads to its end counts as good, a missing one as bad, and there is no third case unless the file has a header block on which reading never ends. An unknown log level raises KeyError. warcunpack_ia makes the directory given with -o if it does not exist, then empties the log file (given with -l, or named after the first archive in the output directory) and raises TypeError before any archive is opened (OSError if the directory or the log file cannot be made); without file names and without -l it prints the heading of the log to standard output and fails as C84 says; nothing else on disk changes. Help and rejected command lines touch nothing.", "quantifier": "all command lines, all contents of all files, all link extractors, all states of the disk, all inputs on stdin", "why_tests_cant": "the status is a count over arbitrarily many files of arbitrary contents; a test with 256 bad files is not what anyone writes, and that nothing else on disk changes is a statement about every path", "anchors": ["hanzo/warclinks.py: main, extract_links_from_warcfh", "warcunpack_ia.py: main, log_headers"]}
{"id": "C98", "title": "HTTP messages with a gzip body and a Content-Length", "statement": "For a message with Content-Encoding gzip and a Content-Length, whose head comes in one call of feed() together with further text: the announced number of bytes is decompressed; if that gives something it is the body, the message is complete and nothing is given back (defect: what follows the announced bytes is lost); if it gives nothing, the body is empty and all the text behind the head is given back; if the bytes are not gzip (OSError), all the text is the body whatever the announced length; any other exception (EOFError for a cut stream, zlib.error) comes out of feed(). When the first call ends with the head, the body is empty and everything that follows is given back. The decoded form has the decompressed body and its length, but still says Content-Encoding gzip (defect). warcfilter -H selects records with such messages by their media type whatever follows the announced bytes; it stops with an exception at a record whose gzip stream is cut or empty. warc2warc -D never decodes such a record: it stops with AttributeError.", "quantifier": "every message head, every announced length, every text behind the head, every body, every gzip codec that obeys the stated laws, requests and responses, every list of ignored headers; for the tools every well-formed archive of such records", "why_tests_cant": "the outcome is a function of the announced length, the bytes behind the head and of where the call ends; the repository has one gzip message in its tests and feeds it in one piece", "anchors": ["hanzo/httptools/messaging.py: ZipLengthReader, HTTPMessage.feed, HTTPMessage.get_decoded_message", "hanzo/warcfilter.py: parse_http_response", "hanzo/warc2warc.py: process"]}
{"id": "C99", "title": "HTTP bodies announced as chunked that are not", "statement": "For a message that announces a chunked body whose first line is not a chunk size line: if the call of feed() in which the body begins brings the whole first line, everything behind the head, in this call and in all later ones, is the body, and close() completes the message; if that call ends inside the first line, the text is an error (ValueError) in whatever pieces the rest comes (defect: the same message is good or bad depending on how it is split). A body of this kind without a line feed is never shown, even after close(). Behind a correct chunk a line that is not a chunk size is a ValueError in whatever pieces the text comes.", "quantifier": "every message head that announces chunking, every first line that is not a chunk size, every rest, every number of correct chunks, every way to split the text into pieces, requests and responses", "why_tests_cant": "the outcome depends on where the text is split; all splits of all texts cannot be tried", "anchors": ["hanzo/httptools/messaging.py: ChunkReader.feed_start, HTTPMessage.feed, BrokenChunks"]}
{"id": "C100", "title": "Six lines of junk hide the rest of the archive", "statement": "If well formed records (possibly none) are followed by data in which no version line comes before the sixth line that is not blank, or before the end (log output, a page, any other file format; behind the sixth line anything may follow, also good records), a reader gets exactly the records before, with offsets and contents and without errors, and one last entry without a record, whose errors are one 'ignored line' per line that is not blank, at most six, and after six 'too many errors'. warc2warc and warcfilter write the (selected) records before and end with the exception 'Errors while decoding', whatever follows. warcvalid returns -1, or 0 if the lines are all blank. warcindex lists the records before and ends normally (defect: the index silently lacks all that follows, and any other file has an empty index).", "quantifier": "all lists of well formed records, all data that begin with such lines, all continuations, compressed (in any division into members) or not, all lists of files before and after, all selections", "why_tests_cant": "the data behind the lines and the lines themselves are arbitrary", "anchors": ["hanzo/warctools/warc.py: WarcParser.parse, bad_lines", "hanzo/warctools/stream.py: RecordStream.__iter__, read_records", "hanzo/warcindex.py: main", "hanzo/warcvalid.py: main", "hanzo/warc2warc.py: main", "hanzo/warcfilter.py: main"]}
{"id": "C101", "title": "Random access in ARC files", "statement": "In an uncompressed ARC file a program that has read the filedesc record (and the content of the record it read last, to its end) can seek to the offset of any record for which the same field names are in force, and reads from there exactly this record and all the following ones, with their offsets; in particular after opening the file and reading its filedesc record, to every record before the next filedesc record. Opening the file at the offset of a filedesc record works like opening it at its beginning. Opening it at the offset of a data record never gives this record: with ArcRecord the first read raises 'missing filedesc', and with format detection open_archive raises, or takes the file for a WARC file if the header line contains 'warc/'. The field names do not move back with the position: in two ARC files behind each other, going back from the second to a record of the first gives, without any error, wrong fields (defect).", "quantifier": "all well formed ARC files with any number of filedesc and data records, any names, values and contents, all positions in them, all streams reached with these names in force, with and without offsets", "why_tests_cant": "the offsets depend on all contents before; the parser state depends on the history", "anchors": ["hanzo/warctools/arc.py: ArcParser.parse", "hanzo/warctools/stream.py: RecordStream.seek, open_record_stream", "hanzo/warctools/archive_detect.py: guess_record_type"]}
{"id": "C102", "title": "Going on after a crash", "statement": "An uncompressed archive to which records are appended although the writing of a record was interrupted: the records before the interrupted one are always read. What happens then depends only on where the writing stopped. Inside 'WARC': nothing of the new records is lost, the first carries an error. Inside the version number: the reader raises a TypeError. Inside a header name or between two lines of the header block: the reader never ends. Inside the value of a header or the blank line behind the headers: the interrupted record and the next one are welded into one record which has the headers of both, the content of the second, and for an error at most that a Content-Length is no number; if the value was not a Content-Length the file is a well formed archive and warcvalid accepts it. Inside the payload: the content is filled up with the first bytes of the new records without any error, and what follows is read as if a file began behind them, so that the new records may all be lost; if there are not enough bytes all of them become content and the next read raises. Behind the payload: everything is read, but if only a CR was written the next version begins with that CR.", "quantifier": "all well formed archives, all records that are interrupted, all positions inside their bytes, all appended records, with and without offsets", "why_tests_cant": "quantifies over every crash point and every content before and after it; some outcomes are that the program does not end", "anchors": ["hanzo/warctools/warc.py: WarcParser.parse, WarcRecord._write_to", "hanzo/warctools/stream.py: RecordStream._read_record, _skip_to_eoc", "hanzo/warctools/record.py: ArchiveRecord.write_to", "hanzo/warcvalid.py: main"]}
{"id": "C103", "title": "What is in the file when write_to returns", "statement": "The bytes of a record are handed to the file object call by call; between these calls and the file there is a buffer. When write_to of an uncompressed record returns, all its bytes are in the file and the buffer is empty, for every buffer size. A program that is killed after any number of calls leaves a prefix of the archive which contains every record whose write_to had returned, and these records are read back unchanged. If every record fits into the buffer the file is, at every moment, an archive of exactly the records whose write_to had returned: no record is ever seen in part. With gzip=True this fails (defect): write_to flushes the gzip object before it closes it, so that when it returns the end of the compressed member (the end of the deflate data, checksum and size) is still in the buffer; a program killed then leaves a file whose last record is damaged although write_to returned, and the reading ends with an exception.", "quantifier": "all records, all sequences of records, all buffer sizes, all positions at which the program is killed, all compressors", "why_tests_cant": "quantifies over every crash point and every size; a test that closes the file never sees the buffer", "anchors": ["hanzo/warctools/record.py: ArchiveRecord.write_to", "hanzo/warctools/warc.py: WarcRecord._write_to"]}
{"id": "C104", "title": "Several programs write to one file", "statement": "Several programs append records to the same file, opened for appending, without any lock. If every record fits into the buffer of its writer and no compression is used, then for every schedule and however far each program has come the file is an archive of a merge of the records whose write_to has returned, each program's records in their order, and all of them are read back. If a payload is larger than the buffer this fails (defect): the headers, the payload and the terminator reach the file separately and the other program's record can land between them, so that its bytes are read as the payload of the first. With gzip=True it fails even for small records (defect): the end of a member can land behind the beginning of another.", "quantifier": "all numbers of programs, all sequences of records, all schedules of their writes to the file, all points which each of them has reached", "why_tests_cant": "quantifies over all interleavings of the writers", "anchors": ["hanzo/warctools/record.py: ArchiveRecord.write_to", "hanzo/warctools/warc.py: WarcRecord._write_to", "hanzo/warctools/stream.py: RecordStream.write"]}
{"id": "C105", "title": "What warcvalid reports", "statement": "For any list of files, what warcvalid prints on stderr and its exit code are determined by the first flaw of each file: for an uncompressed file whose first flawed entry has some offset, one message with the file's name, exactly that offset (behind good records: where the flawed one starts) and the list of its flaws, and then the next file is looked at; a file without flaws gives no message; a file that cannot be opened or whose reading raises gives one message without name or offset and ends the run, so the files behind it are not looked at. The exit code is 0 exactly when nothing was printed. For compressed files (defect) the offset is None, and formatting the message raises, so a flaw in a compressed file is reported as an exception without name, offset or flaws and the remaining files are not validated.", "quantifier": "all lists of files with any bytes, stored uncompressed or compressed (decompressing without an error) or missing", "why_tests_cant": "the report is characterised for every content of every file and every order of the files", "anchors": ["hanzo/warcvalid.py: main", "hanzo/warctools/warc.py: WarcRecord.validate, WarcParser.parse", "hanzo/warctools/stream.py: RecordStream._read_record, GzipRecordStream._read_record"]}
{"id": "C106", "title": "What every sequence of bytes means as a WARC file", "statement": "For every sequence of bytes, from any position on, reading WARC records gives exactly what a grammar without regular expressions says. Lines of CR and LF are skipped; a version line is looked for, blank lines not counting and at most five other lines being tolerated, each with a complaint; the version is what stands from WARC/ (with the white space directly before it) to the line end, what stands before that is a complaint, as is a line end other than CR LF; the header block ends with a blank line that cannot continue a field; a field has the name before the first colon and the value behind it, continued by lines that begin with white space, joined with one blank, each piece stripped; the complaints name the wrong line ends and the values that are not allowed. The reported offset is that of the version; the payload begins directly behind the block and has the length of the last valid Content-Length, or 0. A version that is not known raises TypeError, a header block with a line that is neither a field nor blank never ends, and six lines of junk end the file. Reading a whole file with all contents is what this gives from record to record: a payload that is cut is returned short, and the next request raises an exception; a length of -1 takes the rest of the file, a smaller one raises ValueError.", "quantifier": "all sequences of bytes, all positions, compressed or not, with or without offsets", "why_tests_cant": "an exact description of the result for every input; a test compares it on some", "anchors": ["hanzo/warctools/warc.py: WarcParser.parse, version_rx, header_rx, value_rx, nl_rx", "hanzo/warctools/stream.py: RecordStream._read_record, read_records, _skip_to_eoc", "hanzo/warctools/record.py: ArchiveRecord.content"]}
{"id": "C107", "title": "What every sequence of bytes means as an ARC file or a mixed file", "statement": "For every sequence of bytes, from any position on, reading ARC records gives exactly what a grammar without regular expressions says. Lines of CR and LF are skipped (the reported offset is where they end), then lines of white space. A line that begins with filedesc: is the header line of a filedesc record; the line behind it is its version and the line behind that gives the field names, which are in force from then on, also for this record; without them, or if one of the two lines is blank, IndexError is raised. Any other line is the header line of a data record; before the first filedesc record it raises an exception. The values of a header line are separated by white space that has a letter, a digit or _ on one side; if there are more separators than needed the last ones count when the first field is URL or Content-type, else the first ones; too few (or one with a single field name) raise TypeError. An empty Content-type and an Archive-length that is no integer are complaints. The length of the payload is the last valid Archive-length, less the two lines for a filedesc record (TypeError if there is none); without one the payload of a data record is the rest of the file, as with -1; a smaller length raises ValueError when the content is read. In a mixed file a line that begins with WARC is where a WARC record is looked for, with the grammar of C106. Reading a whole file with all contents is what this gives from record to record.", "quantifier": "all sequences of bytes, all positions, all lists of field names in force, ARC or mixed, compressed or not, with or without offsets", "why_tests_cant": "an exact description of the result for every input; a test compares it on some", "anchors": ["hanzo/warctools/arc.py: ArcParser.parse, parse_header_list, get_content_headers, SPLIT", "hanzo/warctools/mixed.py: MixedParser.parse", "hanzo/warctools/stream.py: RecordStream._read_record, read_records", "hanzo/warctools/record.py: ArchiveRecord.content"]}
{"id": "C108", "title": "What the tools write is determined by the bytes of their files", "statement": "For every list of input files - missing, uncompressed with any bytes, or compressed and decompressing without an error - the standard output of warc2warc, warc2warc -Z, warcfilter (-U, -T, -C, -D or whole record, with or without -i), warcindex and warcdump, and how the run ends (normally, with which exception, or never), is the one an independent record-by-record account of the bytes gives. The account has no condition on the announced lengths: a length below -1 is a ValueError as soon as the content is wanted; with a length of -1 the content is the rest of the file, copying it in pieces ends with ValueError behind it, and a tool that does not read the content goes on directly behind the head (so that warcindex lists records inside that content while warcfilter on whole records never sees them); a content that is too short is written as far as it is there and the next record is asked for in vain; a first Content-Length that is no number stops warcindex. The same holds for warcextract and (unless an HTTP response is found) warcpayload at any offset of an uncompressed file.", "quantifier": "all lists of files, all bytes in them, all search functions, all offsets", "why_tests_cant": "The claim is about every sequence of bytes, including every combination of odd lengths, junk, folded headers and truncation; tests try a few files.", "anchors": ["hanzo/warc2warc.py:process", "hanzo/warcfilter.py:filter_archive", "hanzo/warcindex.py:main", "hanzo/warcdump.py:dump_archive", "hanzo/warcextract.py:dump_record", "hanzo/warcpayload.py:dump_payload_from_stream", "hanzo/warctools/stream.py:read_records", "hanzo/warctools/stream.py:__iter__", "hanzo/warctools/record.py:content", "hanzo/warctools/warc.py:_write_to"]}
{"id": "C109", "title": "What every sequence of bytes means as an HTTP message", "statement": "For every sequence of bytes given to feed() of a new RequestMessage or ResponseMessage, with any ignored headers and any request method, what happens is what a grammar without parser states says: the start line, the fields with folded lines, the framing, the body (to the end, by length, gzip by length, in chunks with trailers), a response 100 put aside once. This covers the malformed texts too: which exception is raised (ValueError for a start line, a field without colon, a Content-Length that is no number, a later chunk line that is none; IndexError for a folded line before any field), exactly when the call never returns (bytes behind a negative chunk size), what feed() gives back, and what get_body(), get_message(), complete(), headers_complete(), the fields, trailers, code, version, phrase, method, target URI, host, port, scheme, keep-alive and expect-continue flags and interim responses show, before and after close(), and what get_decoded_message() gives for it. The outcome is the same when the bytes come in any pieces, except behind an empty first line, for gzip bodies decompressed on the fly, for 'chunked' bodies without a chunk and for a second interim response. In particular arc2warc takes exactly those bytes for an HTTP response that the grammar calls one complete response with nothing behind it.", "quantifier": "all byte sequences, all kinds of messages, all sets of ignored headers, all ways to cut the bytes into pieces, all results of the decompressor", "why_tests_cant": "The claim fixes the outcome for every byte sequence, also for all malformed ones; there are infinitely many combinations of lines, folds, sizes and cuts.", "anchors": ["hanzo/httptools/messaging.py:HTTPMessage.feed", "hanzo/httptools/messaging.py:HTTPMessage.close", "hanzo/httptools/messaging.py:HTTPMessage.get_body", "hanzo/httptools/messaging.py:ChunkReader", "hanzo/httptools/messaging.py:LengthReader", "hanzo/httptools/messaging.py:ZipLengthReader", "hanzo/httptools/messaging.py:HTTPHeader.add_header_line", "hanzo/httptools/messaging.py:RequestHeader.set_start_line", "hanzo/httptools/messaging.py:ResponseHeader.set_start_line", "hanzo/httptools/messaging.py:ResponseMessage.feed", "hanzo/arc2warc.py:is_http_response"]}
{"id": "C110", "title": "What warcfilter -H and warc2warc -D write, as a function of the bytes", "statement": "For every list of files, whatever their bytes (compressed ones must decompress without an error): what warcfilter -H writes and how it ends is a function of the bytes: of the response records whose content type begins with application/http it writes, under new Content-Type and Content-Length headers, those whose HTTP message has a matching media type; a response record without content type ends it with AttributeError, a content that is not one complete HTTP response with NameError or with the exception of the HTTP parser, and a chunk of negative size keeps it busy for ever. What warc2warc -D writes and how it ends, with or without -Z and --wget-chunk-fix, is a function of the bytes too: response records are read and written under new headers, all others are copied, but the first response record with the exact content type of an HTTP message that holds one complete message ends the run with AttributeError (TypeError for a request for an http URL without a path), so that no record is ever decoded, and --wget-chunk-fix has no effect whatever is in the files.", "quantifier": "all lists of files, all byte sequences in them, all search patterns, all options", "why_tests_cant": "The claim is an equation over all files and all contents of their records, well-formed or not; tests try finitely many.", "anchors": ["hanzo/warcfilter.py:parse_http_response", "hanzo/warcfilter.py:filter_archive", "hanzo/warc2warc.py:process", "hanzo/warc2warc.py:main", "hanzo/httptools/messaging.py:HTTPMessage.feed", "hanzo/httptools/messaging.py:HTTPMessage.get_decoded_message"]}
{"id": "C111", "title": "What arc2warc writes, as a function of the bytes", "statement": "For every list of files, whatever their bytes (compressed ones must decompress without an error), and every clock, hash function and set of options: what arc2warc writes, how the run ends (normally, with which exception, or never) and the state carried from file to file are a function of the bytes, given record by record by what the bytes mean as an ARC or WARC record. A filedesc record becomes a warcinfo and a metadata record with its lines and content; a data record becomes one WARC record whose type and content type follow from the URL prefixes and, for http URLs, from whether the content means exactly one complete HTTP response; WARC records are copied. A record without length (or with length -1) takes the rest of the file; a length below -1 and a date that is none (not even after being cut) raise ValueError, a missing URL or date TypeError, a missing content type AttributeError, a data record before any filedesc record TypeError in the middle of its headers, a content that the HTTP parser refuses the parser's exception, a negative chunk size keeps it busy for ever, a short content 'expected more bytes' after it was converted. With -o no ARC record is ever converted, with --resource or --response no data record, whatever the files are.", "quantifier": "all lists of files, all byte sequences in them, all clocks, hash functions and options, gzip output or not", "why_tests_cant": "The claim is an equation over all files, well-formed or not, and all their records; tests try finitely many.", "anchors": ["hanzo/arc2warc.py:ArcTransformer.convert", "hanzo/arc2warc.py:ArcTransformer.convert_filedesc", "hanzo/arc2warc.py:ArcTransformer.convert_record", "hanzo/arc2warc.py:is_http_response", "hanzo/arc2warc.py:main", "hanzo/warctools/mixed.py:MixedRecord", "hanzo/warctools/arc.py:ArcParser.parse", "hanzo/warctools/stream.py:RecordStream"]}
{"id": "C112", "title": "Records written with another line end", "statement": "record.write_to(out, newline) writes the given line end, and no other, after the version line, after every header line, as the blank line and twice behind the content - for content tuples (with Content-Type and Content-Length rewritten), content files and records just read, plain and with gzip=True. Records written with LF are read back completely, with or without format guessing and compression: same versions, headers, contents and offsets, no record lost, but each with exactly one complaint about its version line and one per header line; so warcvalid rejects the file at its first record (exit -1). Records written with CR are not readable.", "quantifier": "every line end, every list of representable records (version, headers, content type, content of any size), every content file, both compression settings, with and without format guessing, every gzip codec that meets the laws", "why_tests_cant": "All tests and tools use the default CR LF; that nothing else in the writer or reader depends on it (for every content, including contents full of line feeds or lines that look like headers or versions) is a statement about all records and all byte strings.", "anchors": ["hanzo/warctools/record.py: ArchiveRecord.write_to (167-185)", "hanzo/warctools/warc.py: WarcRecord._write_to (76-127), WarcParser.parse (179-281)", "hanzo/warctools/warcvalid.py: main (24-63)"]}
{"id": "C113", "title": "What the bytes of a damaged compressed file mean", "statement": "A compressed WARC file that is damaged in any way decompresses to some bytes and then the decompressor raises an exception. Asking for the next record gives a record exactly if its version line, its whole header block and the blank line behind it are among those bytes - with the same offset, version, headers, complaints and payload position that the same bytes have in an undamaged file; it ends without a record only with more than five junk lines that are all there completely; an unknown version or a header line that is no field is found as soon as the line is complete; in every other case the decompressor's own exception comes through, never a silent end of the file. A program that reads every record with its content gets exactly the records whose payload is there completely, in order, and then that exception (a content cut short, or of length -1, raises it too).", "quantifier": "every sequence of bytes before the damage, every exception, every place and kind of damage (any compressed file that the decompressor fails on), with and without offsets, every gzip codec", "why_tests_cant": "A test damages one file at one place. That no byte position exists at which the reader takes the end of the readable data for the end of the file, loses a complete record or gives out an incomplete one is a statement about every prefix of every file.", "anchors": ["hanzo/warctools/stream.py: RecordStream._read_record (88-102), read_records (64-75), GzipRecordStream (206-235), GeeZip (183-204)", "hanzo/warctools/warc.py: WarcParser.parse (179-281)", "hanzo/warctools/record.py: ArchiveRecord.content (47-137)"]}
{"id": "C114", "title": "What the tools write for any files, damaged ones included", "statement": "For every list of files, whatever is in them - missing, not compressed, compressed, compressed and damaged anywhere - it is fixed what warc2warc (plain and -Z), warcfilter (every mode but -H, with and without -i), warcindex and warcdump write and with what they end. The files are read in order; of a damaged file the complete records before the damage are treated as usual, and then the decompressor's exception ends the program, so that the files behind it are never opened and nothing written is taken back. A record whose head is complete but whose content is not is never treated as complete: warc2warc -Z and warcfilter write nothing of it, warc2warc writes its head and those pieces of 8192 bytes of its content that are there completely, warcindex lists it only if its headers say everything that is needed, warcdump writes its offset and headers.", "quantifier": "every list of file names, every file system, every content of every file (with and without damage), every search pattern and mode, every gzip codec", "why_tests_cant": "A test runs a tool on a few files. That no file and no place of damage makes a tool drop a complete record, write an incomplete one as complete, or go on after the damage is a statement about all of them.", "anchors": ["hanzo/warc2warc.py (35-88)", "hanzo/warcfilter.py (28-120)", "hanzo/warcindex.py (24-60)", "hanzo/warcdump.py (24-52)", "hanzo/warctools/record.py: ArchiveRecord.write_to (167-185), content (47-137), dump (143-165)", "hanzo/warctools/warc.py: WarcRecord._write_to (76-127)", "hanzo/warctools/stream.py: GzipRecordStream (206-235)"]}
{"id": "C115", "title": "What warcvalid reports about any files, damaged ones included", "statement": "For every list of files - missing, uncompressed, compressed, compressed and damaged in any way - the messages of warcvalid and its exit code are determined: each uncompressed file with a flaw is reported with its name and the position and the complaints of its first flawed record and the next file is looked at; a missing file, a flaw in a compressed file and every damage are reported as an exception without name or position, which ends the run. The exit code is 0 exactly if every file is there, decompresses to its end if it is compressed, and has no flaw up to its end: a damaged file is never called valid, whatever the damage and wherever in the list it stands.", "quantifier": "every list of file names, every file system, every content of every file (every kind and place of damage), every gzip codec", "why_tests_cant": "A validator is relied on for the file nobody thought of. That no damage and no combination of files makes it say 'valid' is a statement about all contents and all lists.", "anchors": ["hanzo/warcvalid.py (24-63)", "hanzo/warctools/stream.py: RecordStream._read_record (88-102), GzipRecordStream (206-235)", "hanzo/warctools/warc.py: WarcParser.parse (179-281), validate (132-133)"]}
{"id": "C116", "title": "warcextract and warcpayload at any position of any file", "statement": "For every file and every offset, be it the beginning of a record or not, it is determined what warcextract and warcpayload (unless an HTTP response is found there) write and how they end: the bytes from the offset on are taken as they are, or decompressed if the file is compressed (its name, or its first two bytes; for warcpayload the two bytes at the offset), and the first record found in them is written - never more than its announced length, and never a record other than the first. If the decompressor fails, a record whose content is there completely is still written; of one whose content is not, warcextract writes nothing and warcpayload the complete pieces of 8192 bytes, and the decompressor's exception comes through. A missing file is an OSError.", "quantifier": "every file system, file name, file content (with every damage) and offset, every gzip codec", "why_tests_cant": "Offsets come from indexes that may be stale or wrong, and files may be damaged. What is found at every one of all positions of all files is not a matter of examples.", "anchors": ["hanzo/warcextract.py (36-60)", "hanzo/warcpayload.py (22-63)", "hanzo/warctools/record.py: ArchiveRecord.open_archive (189-196), content (47-137)", "hanzo/warctools/stream.py: open_record_stream (8-45), GzipRecordStream.seek (231-235)"]}
{"id": "C117", "title": "What the bytes of a damaged compressed ARC file or mixed file mean", "statement": "For a compressed ARC file, or one that mixes ARC and WARC records, whose decompressor gives some bytes and then fails, it is determined what a program that reads record by record gets: a record is found exactly if its header line (of a filedesc record, also the two lines behind it; of a WARC record, its whole head) is there completely, and then kind, version, headers, complaints, payload length and the field names for later records are those of an undamaged file with the same bytes - as is an exception that those lines cause; otherwise the decompressor's exception comes through, never an end of the file. Reading the payload gives all announced bytes or raises; a record without a length never has a payload. The same records come first as without the damage.", "quantifier": "every codec, every data before the damage, every exception of the decompressor, both parsers, every list of field names in force, with or without offsets, from every place", "why_tests_cant": "The damage can be at any of all bytes of any file; the claim says what happens at each one, including in the middle of the three lines of a filedesc record.", "anchors": ["hanzo/warctools/arc.py: ArcParser.parse (89-154)", "hanzo/warctools/mixed.py: MixedParser.parse (21-28)", "hanzo/warctools/stream.py: RecordStream._read_record (88-102), GzipRecordStream._read_record (213-229), read (108-128), readline (130-150)", "hanzo/warctools/record.py: content (47-137)"]}
{"id": "C118", "title": "What arc2warc writes for any files, damaged ones included", "statement": "For every list of files - missing, uncompressed, compressed, compressed and damaged in any way, of ARC records, WARC records, both or neither - it is determined what arc2warc writes, with which record ids it goes on, and how the run ends. In a damaged compressed file every record whose header and content are there completely is converted as in an undamaged file; the first one of which anything is missing - and, unless an earlier record ends the run, the first place where nothing is known to follow - raises the decompressor's exception, with everything before it written and nothing of it but, of a WARC record that is copied uncompressed, its head and the complete pieces of 8192 bytes of its content. A record without an announced length, or with the length -1, is never converted from a damaged file, and no damaged file is converted without an exception.", "quantifier": "every list of file names, every file system, every content and damage of every file, every gzip codec, every hash function, clock and option, compressed output or not, every state of the transformer", "why_tests_cant": "The damage can be at each byte of each file, and a conversion that ended quietly there would lose the rest of an archive unnoticed; that it never does is a statement about all contents.", "anchors": ["hanzo/warctools/arc2warc.py: ArcTransformer.convert (44-175), main (177-234)", "hanzo/warctools/mixed.py: MixedParser.parse (21-28)", "hanzo/warctools/arc.py: ArcParser.parse (89-154)", "hanzo/warctools/record.py: ArchiveRecord.content (47-137), write_to (167-185)", "hanzo/warctools/stream.py: GzipRecordStream (206-235)"]}
{"id": "C119", "title": "Which files warclinks counts as failed", "statement": "For every file, whatever its bytes and however damaged, it is determined whether a program that reads every record and carries on after a content that cannot be read gets to the end, gives up, or never ends; so for any list of files, if no header block makes reading endless, the exit status of warclinks is minus the number of files that it cannot go through, modulo 256, and if one does the command never ends. A file can be gone through exactly if it is there, no record has a content cut short, no record makes the parser raise (an unsupported version), and, if it is compressed, reading does not come to a damage - except that reading ends, and the file counts as good, at a record with the length -1 and where six lines of junk follow one another, even with a damage further on (defect); and behind a record with a length below -1, whose content cannot be read, the loop goes on, taking the content for records.", "quantifier": "every list of file names, every file system, every content and every damage of every file, every gzip codec, every command line with a log level that exists", "why_tests_cant": "A batch job relies on the exit status for files nobody has looked at; which of all files are counted is a statement about every content and every place of damage.", "anchors": ["hanzo/warclinks.py (202-226), extract_links_from_warcfh", "hanzo/warctools/stream.py: RecordStream.read_records (64-75), _read_record (88-102), _skip_to_eoc (111-120)", "hanzo/warctools/record.py: content (68-90)"]}
{"id": "C120", "title": "What arc2warc writes can be read back, whatever the ARC files hold", "statement": "Whenever arc2warc returns, whatever its ARC files hold - header values with white space around them, records without a length, dates without a time of day or none -, its output is a list of records with a known version, header values without line feeds and the right Content-Length: read back, plain or compressed, it gives as many records, in this order, with these contents, at the offsets where they were written, with these headers but for white space around the values (which ARC header lines can give, even a CR at the end of a URL, and which the writer puts into the header line and the reader drops), without a complaint; and warcvalid accepts it with exit code 0 and without a message. When an exception stops arc2warc, the same is true of what it has written until then, except that it may end with the beginning of one more record (when compressing, in a last gzip member, see C121); a reader of the uncompressed output gets all the complete records before anything else.", "quantifier": "every list of files with every content on which arc2warc returns (WARC records in them, which are copied, being proper), every clock, hash and prefix list, every output file name without a line feed, both output modes, every gzip codec that keeps its laws; for the part about white space, every list of records with any number of headers and any content", "why_tests_cant": "Header lines of old ARC files hold anything; that no field of any of them can break the header block of the WARC record it ends up in is a statement about every file.", "anchors": ["hanzo/arc2warc.py: ArcTransformer.convert, convert_filedesc, convert_record (64-177)", "hanzo/warctools/arc.py: ArcParser.parse_header_list (156-173), SPLIT (71)", "hanzo/warctools/warc.py: WarcParser.parse (179-281), header_rx (155-166)", "hanzo/warctools/record.py: write_to (167-185)", "hanzo/warcvalid.py: main (24-63)"]}
{"id": "C121", "title": "What an exception leaves of compressed output", "statement": "Whether warc2warc and arc2warc return or stop with an exception, and whatever their input files hold: what they leave when compressing decompresses, without an error and to its end, to what they leave when not compressing, and both runs end in the same way (return, the same exception, no end). So when the writing of a record raises half way - its content cannot be read to its end, a header value is not bytes - its beginning stands in a last gzip member which is complete, with checksum and size: nothing on the level of gzip shows that a record is missing or cut (defect). Up to that member the output is what it would be if nothing were left of that record. The same holds for write_to on a single record, behind any records written before. A reader of what arc2warc -Z left gets all the complete records, with their contents, before anything else.", "quantifier": "every list of files with every content, damaged or not, every clock, hash, prefix list and option, every record and stream, every list of records written before, every line end, every gzip codec whose members decompress one after the other", "why_tests_cant": "The exception can come at any byte of any file, after any number of records.", "anchors": ["hanzo/warctools/record.py: ArchiveRecord.write_to (167-185)", "hanzo/warctools/warc.py: WarcRecord._write_to (76-127)", "hanzo/warc2warc.py: process, main (35-88)", "hanzo/arc2warc.py: main (196-234)"]}
