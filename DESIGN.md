# Formal model of internetarchive/warctools in Lean 4

(Written before the proofs; kept up to date as the model grows.)

## Approach

The Python code is modelled function by function as total, computable Lean
functions.  Exceptions are values (`Exc`), mutable objects are structures that
are passed in and returned, `while` loops are fuel-indexed iterations whose fuel
is computed from the input, and a loop that cannot make progress yields the
outcome `hang` (separately proved to be real divergence of the loop body).

Layers

* `Verif/Py/*`     – the slice of CPython (>= 3.5) the code uses: `bytes`
  methods, `int(bytes, base)`, `str(int)`, a backtracking regular expression
  matcher with Perl/Python priorities (patterns are transcribed literally), and
  file handles (`read`, `readline`, `seek`, `tell`).
* `Verif/Model/*`  – the repo: record, stream, WARC/ARC/mixed parsers, writer,
  format detection, HTTP message parser, command line tools.
* `Verif/Spec/*`   – small independent specifications used in statements.
* `Verif/Proofs/*` – helper lemmas.
* `Verif/Props/*`  – the property theorems only, each followed by an `example`
  which shows that its hypotheses are met by a concrete non-trivial case.

## Plan per property

| id | model used | method |
|----|-----------|--------|
| C01, C02, C03, C06, C07, C18, C19 | writer, stream, WARC parser | closed forms of the regexes on written lines, then induction over headers and over records |
| C04, C05, C08, C54, C57 | stream + file handle, any record class, any history (`Spec.Live`) | invariant over a list of read operations; the announced length (`Spec.payloadLength`) is what the parser leaves in the stream |
| C09, C10, C11, C12, C13 | WARC parser | loop invariants; divergence shown for the loop body; witnesses for violated claims |
| C14–C17 | record | direct, list induction, histories |
| C20, C21 | read_records / __iter__ | induction over fuel / record sequence |
| C22–C26 | detection, open, gzip streams | codec is a parameter with stated laws and an exhibited instance |
| C27–C30 | ARC and mixed parser | induction over field lists, split lemmas |
| C31–C42 | HTTP parser | splitting lemmas per feed function, induction over pieces; conservation invariant; encoder specs |
| C43–C47, C51 | tools | tools as functions from streams to outputs, built on C01–C08 |
| C48–C50, C52 | arc2warc | direct + round trip through writer |
| C53, C59 | s3, expand_files | boto bucket is a parameter; induction over pages |
| C55 | builders | direct + round trip through writer |
| C56, C60 | warcunpack_ia.output_file | path confinement over components of normalised paths |
| C58 | scan of arbitrary files, writer | every accepted header list is shown to satisfy the writer's rules, then C01 |
| C61 | all tool loops | every round moves the file position forward; simulation between fuels; stuck inputs characterised |
| C62, C63 | feed_predict, feed_fd, HTTP/0.9 | invariant of parser states; induction over the parts of a message |
| C64, C65 | request target, host, port; keep_alive, expect_continue | closed form of url_rx; scan of the header fields; carried through the feeding theorem |
| C66 | record.dump, warcdump | escaping of the preview by induction over bytes; per-record blocks by induction over the scan |
| C67 | reading compressed data that ends in an exception, for all parsers | simulation: code run on the damaged data does what it does on every continuation of the data, until the decompressor raises (`Like`); then induction over the scan |
| C68 | header and trailer lines, start lines | a separate description of layouts (`Spec/HttpLoose.lean`); induction over fields and continuation lines, then the body theorems of C33–C38 |
| C69 | warcunpack_ia main, unpack_records | record loop with `bytes` and `str` kept apart; invariant: the disk never changes |
| C70 | warclinks get_abs_links on texts, with `urlparse`, `urlunparse`, `os.path.split` | RFC 3986 section 5.2 written out separately (`Spec/Links.lean`); induction over directories, leading dot segments and segments of the rest |
| C71 | warclinks handle_starttag and extractors | fold over start tags against a separate table of link attributes |
| C72 | warclinks extract_links_from_warcfh on Python 3 | as C69 |
| C73 | the lazy `content` of `record.py` together with the shared stream | two `World` steps on one stream; induction over the records for the program that reads everything first |
| C74 | `GzipRecordStream.seek` with the raw file and the bytes taken from it | decompressed data recomputed from the bytes taken and the new position; induction over the records read before and after |
| C75 | the message parsers, one after the other, with the unused bytes handed on | induction over the pieces and the messages; a piece ends in one message, or completes it and goes on with the next (`kind_pieces`, `kind_prefix`) |
| C76 | `ArcRecordHeader.raw`, `ArcParser.parse`, `MixedParser.parse` | the lines taken by the parser are followed through the blank lines and the three lines of the record (`RawText`); the payload by the read lemma of C04 |
| C77 | `write_to`, `_write_to` on a device of limited capacity | the writer with its `out.write` as a parameter, equal to the ordinary one for an ordinary file; every program made of such writes puts the same bytes, cut at the capacity (closed under sequencing and the copy loop); reading back by C07; the retry from an explicit account of the blocks taken |
| C78 | `RecordStream.write` | the same writer, with a `write` that raises |
| C79 | Relation `Grow` between runs on a file and on the same file with more behind it (as long as the end is not reached the runs coincide), closed under sequencing, conditionals and loops; every function of the reader and the three parsers keeps it; then induction over the scan, using that a returned record always consumes bytes. Opening the longer file gives the same stream. |
| C80 | Inversion of a successful read gives blank lines, junk lines, prefix, version line and header block; the forward lemma for the parser is then applied to the part from the version on (`reread_full`), with the same state at the end. Scans by induction; opening because the bytes at the offset are whitespace or `W`, so neither gzip nor another class. |
| C81 | `Late X f s p q`: running `q` with `X` in front of the file is running `p`, with the result mapped by `f` (offsets shifted); closed under sequencing, conditionals and loops; holds for every function of the reader and of the three parsers; then induction over the scan. Opening by cases of the detection. |
| C82 | The loop over blank lines is redundant in front of the WARC parser (`readFresh_direct`), so that blank lines at the end of `A` can be passed one by one into `B` (`readRecord_junction`); records before come from C79, what follows from C81. |
| C83 | By cases on class and on the state of the content; the lengths of records just read come from what the parser announces (`live_announces`) and C16. |
| C84 | Text file model in which a bytes pattern cannot be matched; parser and loop bodies are arbitrary, because they are never reached. |
| C85 | A scan that warcvalid accepts is turned into a run of the collecting program (`collect_of_clean`: a payload that is too short makes the next record raise, so every payload is complete), then C46/C58 give the copy and C43 its acceptance. `C85_repairs` needs no acceptance, only readable files with proper header values. arc2warc through `convertsFiles_ok` (C48). |
| C86 | The offset is carried through the parsers without being looked at: relational proof, parser by parser, of `readRecord false = readRecord true` with the offset forgotten (`readRecord_offset`), then induction over the loops. |
| C87 | The body of the warcindex loop on any record of the parser (`index_sane`), induction over the run of the collecting program; the way back from offsets is C80. |
| C88 | Composition of C55 (builders), C01 (round trip), the parsing lemma behind C31–C36 (`kind_parse_pieces`) and C43/C46 (tools); `Spec/Crawl` says what an exchange is and what a reader should see. |
| C89 | Parallel induction over `collect` (what a reader gets) and the tools' loops: `Tool.Salvages` says what one iteration does on a complete record, a record cut by the end of the file, and a record in which decompression raises; `Leftover` (Spec/Salvage) bounds what may follow. `C89_recover` composes this with C67. With `-Z` the bytes that a gzip member cut short by an exception leaves in the output are not modelled (`writeToGz` writes whole members). |
| C90 | `C48_converts` applied to a file of WARC items only; that the records written are such items is an induction over `ConvertsFiles`. |
| C91 | Spec/Convert: `pieces` is a reader's loop that notes class, version, headers, raw headers and content; `Becomes` says what a piece turns into. Inversion of the whole transformer (`convertRecord_inv`, `convertFiledesc_inv`, `writeNew_inv`, `handle_inv`), then induction over the loop and over the files. No hypothesis on the files; a WARC record with a negative or doubled length is covered (`writeTo_ok`). The converse (`C91_converts`) runs the same functions forwards (Proofs/ConvertFwd: `handle_fwd`, `loop_fwd`). |
| C92 | Model/HttpClient transcribes `http.client.HTTPResponse` (3.11: `begin`, `_read_status`, `parse_headers`, the part of the email parser that finds the fields, `read`, the chunked reader) on top of the content file. `Reads` is a relation between the rest of the record before and after a step; induction over fields, interim responses, blocks of 8192 bytes and chunks (`Place`); for bodies that are cut short `Bad`. Termination: every step is shown to use up bytes (`Uses`). |
| C93 | `Settled`: for a given rest of the payload either every world gives the same value, the same rest and the same output, or every world raises with the same output; shown for each function of the client by induction over the rest (the fuel is irrelevant above the length of the rest). A negative chunk size leaves the payload but can only end in an exception. The bytes read are a sublist of the payload. |
| C94 | The command lines: `optparse` with the table of each tool, modelled argument by argument. The meaning of a command line is a grammar of items (Spec/Cli); by induction over the arguments the parser accepts exactly the sentences of the grammar and delivers their settings and operands; composed with C43–C46, C51, C66 this says what a whole command does, with its exit status. Options without effect are shown to be removable from any place of any command line. |
| C95 | output_file, os.path.splitext | exact place and name of the file for ordinary URLs: the specification describes extension, cut and candidate names declaratively (Spec/Unpack: `Extension`, `Ends`, `Shortened`, `candidate`, `Taken`); induction over the collisions; every name has such a description (C95_every_name) |
| C96 | The command arc2warc: command line (C94) and transformer (C48) put together, with standard output and the disk as state. |
| C97 | The commands warclinks and warcunpack_ia from their arguments on: command line (C94), a reader that survives bad records (`survey`), C69 and C84 put together; status by counting. |
| C98 | `ZipLengthReader` inside `feed`: the state behind the head (`head_feed`), then one case for each outcome of the decompression of the announced bytes; the tools by the per-record step lemmas of C45 and C47. |
| C99 | `ChunkReader.feed_start` with its `start` flag: the state behind the head, the undo of the first line, then induction over the calls; C31 (any pieces) for the part that does not depend on the split. |
| C100 | Spec/Foreign.lean describes the lines without the parser; the version loop gives exactly the complaints (induction over the lines), the blank loop drops only blank lines; then induction over the records before, and the salvage theorems C89 for the tools. |
| C101 | Props/ArcSeek.lean: the scan theorem for ARC files (C27) started at any position with the names in force there (Spec/ArcSeek.lean); the opening functions with an offset; the defect is exhibited on two concrete files. |
| C102 | Spec/Crash.lean lists the places where the writing of a record can stop; that these are exactly the proper prefixes of its bytes is proved (C102_places). One theorem per place says what `openName` + `collect` (every record read together with its content) give on the whole file; the lines around the place are decomposed and the parser lemmas for single lines are used, then induction over the records after. |
| C103 | Model/Buffered.lean: `write_to` as a list of calls (write, flush) on a file object — that the list is what the writer does is proved for every `put` (C103_calls) —; io.BufferedWriter as a buffer with a size in front of a list of raw writes; GzipFile over a compressor that is a parameter. Invariants over the list of calls, induction over the records, every prefix of the calls. |
| C104 | Spec/Buffered.lean: `Merge` of lists, the file is the concatenation of a merge of the raw writes of the programs (O_APPEND). Induction over the merge; the failures as theorems that give a schedule. |
| C105 | Model/ValidReport: the loop of warcvalid with its messages (the text of exceptions is left out). Spec/ValidReport: `firstFlaw` by recursion on `next` (C106), `messages`. Induction over the rounds with C106, over the files; the exit code is shown to be that of the model of C43. |
| C106 | Spec/Grammar.lean: `next`, a total function from bytes to what they mean (lines, version line, fields), Spec/ReadAll.lean: the same for a whole file. The loops of the parser are shown to compute it by induction over their rounds, on top of the characterisations of the regular expressions (Proofs/Rx). |
| C107 | Spec/ArcGrammar.lean: `separators` (a filter over the places of a line), `cuts`, `nextArc`, `nextIn`, and `meaningIn` for a whole file. The scan of the model of `re.split` is shown to give the pieces between the first separators, on the reversed line those between the last ones (reversal of `cuts`); the rest as for C106. |
| C108 | Spec/ToolRun.lean: what each tool does with a record (`copying`, `filtering`, `indexing`, `dumping`, `extracting`, `payloading`), given the head and the bytes behind it; `runOn` by recursion on `next` (C106), files put together by `andThen`. The loops of the tools are brought into one form (`loopOf`) and compared with `runOn` by induction over the rounds; for each tool, its loop body is shown to do what the specification says, for every announced length. Not included: warcfilter -H, warc2warc -D (C45, C47), files whose decompression fails (C89). |
| C109 | Spec/HttpGrammar.lean: `meaning`, by structural description of the text (`cutAt`, `openingIn`, `fieldsIn`, `chunksIn`, `bodyIn`), no modes, no buffer offsets, no regular expressions, no fuel. `Agrees` compares it with the model of `feed`. Proofs: by induction over the length of the text for fields, trailers and chunks (Proofs/HttpGrammar, HttpGrammarBody), then the head and the five kinds of bodies, then the interim response (HttpGrammarAll). Pieces: the grammar's outcome decides whether C31 applies. Target URI, host, port and scheme are compared through the relations of C64 and C65, for any bytes; `Seen.decoded` gives get_decoded_message as a function of the bytes. |
| C110 | Spec/ToolHttp.lean: `httpFiltering`, `decoding`: what is done with a record, through `Http.Grammar.meaning` of its content. The per-record steps are proved for any record (Proofs/ToolHttp, using C109), the runs by the induction of C108. `bareUrl` is executable and proved to be the URLs of C64 without a path (`C110_bare_url`). Not covered: the notices of -D on stderr, decompression faults. |
| C111 | Spec/Arc2WarcAny.lean: `converted` says what is done with any record that was found (`Located`, C107), through `Http.Grammar.meaning` for contents of http URLs (C109); `convertOn`, `convertFile`, `convertFiles` fold it over files. Proofs/Arc2WarcAny.lean: one lemma per kind of record for any headers, dates, lengths; then the loop by induction on the bytes left (as in C107/C108) and the files by induction on the list. `C111_output_option` and `C111_prefix_option` state the two defects for all files. Not covered: decompression faults; the partial gzip member left when an exception ends the writing of a compressed record; what is printed on stderr. |
| C112 | Spec/Newline.lean: `recordWith nl` (the bytes), `expectLF` (what a reader notes), `writeAllWith`. The model's `writeTo`/`writeToGz` have had the line end as a parameter all along; Proofs/Newline.lean: the writer's equations for every line end by induction over the headers and the copy loop; what LF records mean in the grammar of C106 (`Spec.next`) by induction over the header lines; reading back by induction over the records via `collect_exact` (C106); the rejection by C105. Simplification as before: a half-written gzip member is not modelled. |
| C113 | Spec/GrammarDamaged.lean: `nextDamaged` (the lines that are there completely; C106's `next` if the head is complete, else the exception) and `meaningDamaged` (the read loop). Proofs/GrammarDamaged.lean: a verdict for each loop of the parser on a file whose `fault` is an exception (ok / that exception / never ends), by induction on the fuel over the complete lines; where the parser succeeds, `like_readRecord` (C67) says that the undamaged file with the same bytes gives the same, which C106 describes exactly. Contents: `content_damaged`; the whole file by induction over the rounds. |
| C114 | Spec/ToolDamaged.lean: what each tool does with a head that is complete when the content may not be (`copyingDamaged` … `dumpingDamaged`), `runDamaged` (C108's loop over C113's `nextDamaged`), `onAnyFiles` (any list of files, damaged or not; no `Intact` hypothesis). Proofs/ToolDamaged.lean: `loopOf_damaged` by induction over the rounds with C113's `readRecord_damaged`; one `performsD_*` lemma per tool; `copyLoop_pieces` by induction on the fuel: exactly the complete 8192-byte pieces are copied before the exception. Undamaged files by C108. |
| C115 | Spec/ValidAny.lean: `firstFlawDamaged` (C105's `firstFlaw` over C113's `nextDamaged`), `findingOf` (any file). Props/ValidAny.lean: `tell_damaged` by induction over the rounds with `readRecord_damaged`; `damaged_none_errors` (giving up in damaged data always comes with a complaint: the complete lines are a beginning of all lines, and `look` does not change when lines are appended behind its verdict); then by induction over the list. No hypothesis on the files. |
| C116 | Spec/OnceAny.lean: `onceStored` (C108's `onceOn`, or `onceDamaged` over `nextDamaged`) on the bytes from the offset on. Props/OnceAny.lean: opening at any offset (`open_any_at`), `once_exact`/`once_damaged` from C106's and C113's exact descriptions of one call, `performsD_extract`/`performsD_payload` for what is done with the record. HTTP responses: C92. |
| C117 | Spec/ArcDamaged.lean: `nextArcDamaged` (C107's `nextArc` if the lines the record needs are there completely), `nextInDamaged` (also WARC records, over C113's `nextDamaged`), `meaningInDamaged` (the read loop). Proofs/ArcDamaged.lean: one verdict lemma per loop (`skipBlank_bad`, `arcParse_verdict`, `readRecord_arc_verdict`): either the exception of the decompressor comes, or every exception is the undamaged file's (`SameRaise`); with C67 (`like_readRecord`) and C107 that gives the result; `collect_arc_damaged` by induction over the rounds. |
| C118 | Spec/Arc2WarcDamaged.lean: C111's grammar of the conversion with the decompressor's exception in place of bytes that are not there: `contentOfDamaged` (no content without a length or with the length -1), `convertedDamaged` (WARC records are copied as in C114), `convertDamaged` (over C117's `nextInDamaged`), `convertAnyFiles`. Proofs/Arc2WarcDamaged.lean: the record's conversion (C111's lemmas were made generic in the content: `Contains`, `DidC`), the loop on a damaged stream, any list of files. Props/Arc2WarcDamaged.lean: `C118_convert`, `C118_command`, `C118_damaged_stops` (never without an exception). |
| C119 | Spec/SurveyAny.lean: `surveyOn` (over C106's `next`), `surveyDamaged` (over C113's `nextDamaged`), `surveyFile`. Proofs/SurveyAny.lean: the state behind a content that cannot be read (`content_negative`, `content_lost`), `survey_exact` and `survey_damaged` by induction over the rounds. Props/SurveyAny.lean: `C119_file` (C97's `GoesThrough` and `GivesUp` as functions of the bytes), `C119_warclinks` (the command, with the case that never ends), `C119_damaged`. |
| C120 | Spec/Stripped.lean: `R.Loose` (proper but for white space around header values), `expectTidied`. Proofs/Stripped.lean: what a CRLF record with such values means (`next_loose`, over C106's `next`) and a whole archive of them (`meaning_loose`); Proofs/StrippedArc.lean: every line that is read has a line feed at most at its end (`readline_like`), so no value of an ARC header line has one (`parseHeaderList_noLF`, `readRecord_noBreak`, `pieces_fit`), so what C91's `Becomes` makes of an ARC record is `Loose` (`becomes_loose`). Props: C91 (what was written) + the meaning + C105 (warcvalid). `C120_stopped`, `C120_stopped_valid`: the same over `C91_stops`, for what is written until an exception. `C120_first`, `C120_recovered` (Props/StrippedCut.lean): such records in front of any bytes are read first. |
| C121 | Model/Interrupted.lean: `write_to(gzip=True)`, `warc2warc -Z` and `arc2warc -Z` with what CPython does to the `GzipFile` when an exception takes down the frame of `write_to` (its finaliser closes it, which completes the member; observed with 3.11 on files and on standard output). Spec/Interrupted.lean: `SameEnd`, `UnpacksTo`, `OneMore`. Proofs/Interrupted.lean: what is written does not depend on what was written before (`Adds`), and a relation `Alike` between two programs whose outputs are related by `R` as long as they run and by `E` when they raise, closed under sequencing, choices, loops over records and files; instances for all functions of warc2warc and arc2warc. C121_last_member ties this to the model used for all other properties, which shows the output without that last member. Props/InterruptedRead.lean: a reader of what `arc2warc -Z` left gets the complete records first (C120 + the relation). |

If a property is false of the code, the negation is proved with a concrete
witness and the part that holds is proved (with the suffix `_partial` if it is
less than the stated property).  Several properties in `properties.jsonl` are
stated as the code really behaves, defect included, after the intended
behaviour turned out to be false; the list of such findings is below.

## Trusted base

* Lean 4.33.0's kernel (`lake build` checks every proof; nothing is compiled
  into the trusted path).
* Axioms: every theorem named in MANIFEST.json depends on a subset of
  `propext`, `Classical.choice`, `Quot.sound` (checked with `#print axioms` over
  all of them).  No axioms are declared in this project.
* The transcription of the Python code into `Verif/Model` and of the library
  functions it calls into `Verif/Py`.  Every definition cites the lines it
  transcribes and names its simplifications.
* The specifications in `Verif/Spec`, which say what the statements mean.

### What is modelled

| code | model |
|------|-------|
| warctools/record.py (constructor, content, content_type, content_length, url, get_header, set_header, dump, write_to, open_archive) | Model/Record, Model/Open, Model/Dump |
| warctools/warc.py (WarcRecord, _write_to, WarcParser.parse, builders, warc_uuid, random_warc_uuid, warc_datetime_str) | Model/Record, WarcParser, Builders, Ids, Dates |
| warctools/arc.py (ArcRecord, ArcRecordHeader, ArcParser) | Model/Record, ArcParser |
| warctools/mixed.py | Model/ReadRecord |
| warctools/stream.py (open_record_stream, RecordStream, GzipRecordStream, GzipFileStream) | Model/Stream, ReadRecord, Open, GzSeek, WriteOut |
| warctools/archive_detect.py | Model/Open |
| warctools/s3.py, warctools/__init__.py expand_files | Model/S3 |
| httptools/messaging.py (all classes) and the parts of semantics.py it uses | Model/HttpHeader, HttpMessage, HttpMore |
| warcvalid, warcindex, warcfilter, warc2warc, warcextract, warcpayload, warcdump | Model/Tools, Model/Dump |
| warcpayload's FileHTTPResponse, with the base class from the standard library | Model/HttpClient |
| arc2warc.py | Model/Arc2Warc |
| warcunpack_ia.py | Model/Unpack, Model/UnpackRun |
| warclinks.py | Model/Links |
| option tables of warcdump, warcindex, warcvalid, warcextract, warcpayload, warcfilter, warc2warc, arc2warc, warcunpack_ia, warclinks and what their `main` makes of options and operands; `optparse` of the standard library | Model/Cli, Model/CliMore |
| `write_to` as the calls it makes on the file object; `io.BufferedWriter` and the order of the calls of `gzip.GzipFile` of the standard library (the compressor itself is a parameter; the hypothesis of C103_gzip_killed is that its output is the member that the codec of the other theorems decompresses) | Model/Buffered |
| `sys.stdin` branches of warc2warc, warcfilter, warcdump, warcextract, warcunpack_ia (Python 3) | Model/Stdin |

Library behaviour that is modelled (Verif/Py): `bytes` methods, `int()` on
bytes, `str(int)`, `%d`, the `re` fragment used (leftmost, backtracking,
priority order), file objects with `read`, `readline`, `seek`, `tell`; parts of
`datetime`, `posixpath`, `urlparse`.

`tools/conformance.py` compares this part with the interpreter at hand on random
inputs: bytes methods, `int()`, every pattern with its groups, `split`, `repr`,
file reads, `posixpath`, `urllib.parse`, `strptime` (40000 inputs, Python 3.11, no difference), and the
model of `http.client` (18000 responses, no difference) and of `optparse` with the tables of the tools (20000 command lines, no difference), and of `io.BufferedWriter` (sequences of writes and flushes with buffers of 1 to 13 bytes, no difference).
It does not run the code in /repo.

`Verif/Checks/Library.lean` characterises the operations on bytes that stand for
methods of CPython (`strip`, `split`, `lower`, `startswith`, `in`, `int()`, `str()` of a
number, `join`) by theorems that do not mention how they are defined, since model and
specifications both use them and a mistake there could cancel out.

`Verif/Checks/RepoTests.lean` runs the unit tests of the repository
(warctools/tests/test_warctools.py, httptools/tests/parse_test.py) on the model:
every expectation of their authors holds of it, checked by the kernel. One
expectation had to be changed: the tests expect member offsets from compressed
archives, which the code reports only on Python < 3.5 (C25); the model, like the
code on the Python versions pyproject.toml admits, reports None.  These are tests
of the model and count as no proof.

Parameters with stated laws (and an exhibited instance `toy` that satisfies
them, so that they are consistent): the gzip/zlib codec, SHA-1, `uuid4`, the
clock, boto.  About gzip, `Codec.Laws` says that a member starts with the gzip
signature and that concatenated members decompress to the concatenated
contents; `Codec.Cut` (used by C67 and C89) that a file cut inside a member
decompresses to the contents of the members before it, a first part of the
contents of the broken member, and then an exception.  `Codec.Next` (used by C74 only) that what follows a complete member is decompressed like a
file of its own.  No other property of compression is used.

### What is not modelled

* the text of usage and help messages; messages on stderr (except those of warcvalid, C105, without the text of exceptions),
  logging (`warctools/log.py`); the exit status after an exception;
* in warcpayload: exceptions that the email parser of the standard library may raise while it looks at the MIME structure of
  a response (odd parameters of its Content-Type), other versions of `http.client` than 3.11;
* `lxml` and `html.parser`, which find the start tags for warclinks (the module
  cannot be imported on Python >= 3.5, where `html.parser.HTMLParseError` no longer
  exists; its own code is modelled);
* in `warcunpack_ia.py`: the text of the log and the
  collection id that goes into it;
* Python's limit of 4300 digits for `int()` (3.11 and later), memory exhaustion,
  recursion limits, I/O errors of the operating system other than a full device while a record is written (C77: an
  unbuffered file, each `write` takes what fits and then raises), concurrent modification of files;
* (except in C121:) the gzip member of a record whose writing raises. The model's `write_to(gzip=True)` shows the output without it; what
  CPython adds to it when it finalises the `GzipFile` is in Model/Interrupted.lean, with a theorem that this is all the difference;
* `message.write_message` of the HTTP parser (calls a method that does not
  exist).

## Findings: where the code does not do what one would expect

Writing WARC

* `write_to` of a record with a content file that failed (device full) can be called again; it then writes a record whose
  payload is shorter than its Content-Length, without an error (C77).
* `RecordStream.write` raises AttributeError for every WARC record (C78).

Reading WARC

* A header line without colon that is neither blank nor a continuation makes the
  parser loop for ever (C09, C61).
* A record whose content is asked for after the next record was read answers with the payload of that next record,
  or with nothing at the end of the file; there is no error (C73).
* `seek` on a compressed archive from which something was read returns the records read ahead first,
  and then the requested ones (C74).
* An unknown version number raises TypeError instead of adding an error (C10).
* `Name:\r\n` is flagged as a newline error; a continuation of white space only
  is flagged; a folded header whose first piece is empty gets a value with a
  leading blank, which does not survive rewriting (C12, C58).
* With several Content-Length headers `content_length` is the first, the payload as long as the last; `content_length` of an
  ARC file header is larger than its content (C83).
* `set_header` compares names by case, `get_header` does not (C15).
* `read(-1)`/`readline(-1)` and a negative Content-Length leave the payload (C57).
* `seek` does not forget the unread payload (C54).
* `gzip='file'` raises NameError; offsets in compressed files are always None
  (C25, C26).
* A filedesc line that contains `warc/` is taken for WARC (C23).
* A cut at the end of a header line gives a record without payload that
  warcvalid accepts (C43).

ARC

* missing headers raise TypeError instead of the message; a blank version line
  IndexError; `ArcRecord.write_to` writes nothing; a single field URL disables
  the fencepost rule (C28, C29).

HTTP

* the four splitting defects of C31; negative chunk sizes loop for ever (C40);
  two 100 responses in one feed and a forgotten ignore list after one (C39);
  Content-Length of decoded messages (C42); `readLine` and unending `feed_fd`
  (C62); lost text in the HTTP/0.9 fallback (C63); an absolute URL without path
  makes `get_decoded_message` raise TypeError, the version is never recognised as
  HTTP/1.0 in requests, OPTIONS never gives `*` (C64); a continuation line right
  behind the start line raises IndexError (C68).

Tools

* Standard input cannot be read by any tool on Python 3 (C84).
* warcvalid accepts a negative Content-Length, on which warc2warc then raises ValueError (C85).
* warcfilter -H raises NameError, and AttributeError for records without content
  type (C45); warc2warc -D AttributeError (C47); warcextract/warcpayload raise
  NameError on unreadable records (C51); arc2warc -o/--resource/--response raise
  TypeError, one bad record ends the run (C48), ids collide (C50); 12 and 10 digit
  dates are misread (C52); S3 ranges are one too long and the answer raises
  TypeError (C53); keys with `?` or `#` (C59); output_file follows `..` (C56), and a default name that is an absolute path
  leads out of the output directory (C56_default_name); an extension of more than 45 characters is not cut (C95); warcunpack_ia
  unpacks nothing on Python 3 and empties its log file before it raises TypeError (C69);
  warcdump raises on records without content type and on records with errors (C66);
  warclinks: a scheme without host is ignored (`mailto:x` becomes a path), `//host/x` gets no
  scheme, `#f` and `?q` lead to the directory, final `.` and `..` stay (C70); `5; url=x` is not
  found and `url=a?b=c` is cut at the second `=`, the last `base` element counts (C71); no link at all is
  yielded on Python 3 (C72).
* warcpayload (C92): a response whose body is shorter than its Content-Length is written without
  complaint; a chunked body that is cut short loses up to 8191 bytes that did arrive, because the
  piece being collected is dropped with the exception; `chunked` followed by anything, even one blank, is not
  recognised and the chunk framing is written out as the body; a size line cut to zeros ends the body silently.
* warc2warc of a record that the end of the file cuts short writes a record whose payload is shorter
  than its announced length before it raises (C89).

Command lines (C94)

* `warc2warc -o file` writes to standard output all the same; `-l` (limit), `-I` and `-L` have no effect in any tool that has
  them except `-L` in warclinks, where an unknown level is a KeyError.
* `warcextract file -5` is rejected as an unknown option (status 2) and not as a bad offset; further operands are ignored.
* `warcpayload` without operand raises IndexError, without colon ValueError; the length in `file:offset,length` is not
  looked at for local files.
* `arc2warc -o`, `--resource` and `--response` end with TypeError on every ARC file (C96); `arc2warc -o x` without operands
  creates the file before it complains.
* warclinks returns minus the number of files that failed as its exit status: 256 failing files give 0 (C97).
* `read_records` ends without an exception at six lines of junk; warclinks therefore counts such a file as good, and also a
  damaged compressed file with junk before the damage (C119).
* When the writing of a compressed record raises half way, the finaliser of `GzipFile` completes the member: the output of `warc2warc -Z` on a damaged file ends with
  the beginning of a record in a gzip member with a right checksum (C121).
- A field of an ARC header line can have white space at its ends, even a CR (`http://h/\r 2010…`): arc2warc computes the record id from it and writes it as it is (`…\r\r\n`); every reader of the
  WARC file gets the value without it (C120).
* `warcunpack_ia -o dir` makes the directory even though it then fails before any archive is opened (C97).

HTTP bodies (C98, C99)

* A gzip body with a Content-Length: whatever follows the announced bytes in the same call is lost (the next message of a
  connection, for instance); when the head comes alone in the first call the body is empty; the decoded form still carries
  Content-Encoding gzip; a cut gzip stream raises EOFError or zlib.error out of `feed` (only IOError is caught) and stops warcfilter -H.
* A body announced as chunked that is not chunked is accepted if its first line arrives in one call, and is a ValueError
  otherwise; without a line feed in it, it is lost.

Going back in an ARC file (C101)

The field names of an ARC parser belong to the stream, not to the position. `seek` back across a filedesc record (two ARC files behind each other, or
a file with two filedesc records) reads records with the names of the wrong header; if the number of fields differs the split rule for URLs with blanks silently
moves the extra values into the URL. And an ARC file cannot be opened at the offset of a data record at all, although `read_records` reports such offsets.

Foreign data (C100)

* Six lines that are not blank and hold no `WARC/` end the reading for good: the records behind them are never seen. warc2warc and
  warcfilter raise, warcvalid returns -1, but warcindex ends normally with an index that lacks the rest, and gives an empty index for
  any file that is not a WARC file.

Going on after a crash (C102)

A writer that reopens an uncompressed file after a crash and appends, as the library permits, may leave a file on which the reader hangs for ever
(interrupted inside a header name or between two header lines), raises TypeError (inside the version number), or silently welds two records into
one (inside a header value or the blank line) — such a file passes `warcvalid`. Inside the payload the content is silently completed with the bytes of the
next records, and if no version line remains within six lines all records behind are lost.

Reports of warcvalid (C105)

* warcvalid cannot report a flaw in a compressed file: the offset is None there, `"%d" % None` raises TypeError inside the `try` that surrounds the loop over the files,
  so the user gets `Exception: ...` without file name, offset or flaws, and the files behind it are not checked (C105).

Tools on records with a negative length (C108)

* With `Content-Length: -1` warc2warc and warcfilter write the rest of the file as the content and then raise ValueError; warcindex (with a Content-Type present) does not read the
  content and lists what follows as records of its own; warcfilter on whole records swallows the rest of the file silently. The tools disagree about the same file (`minusOne_*`).

The HTTP parser on any bytes (C109)

* Behind the data of a chunk everything up to the next line feed is thrown away, whatever it is: `2\r\nabcde\r\n` is a chunk `ab`, and `cde` vanishes without an error.
* With a negative Content-Length the body is empty, but the message is complete only when at least one more byte comes, and that byte is given back.
* If the text begins with an empty line, feed() gives back everything behind it and stays at the start (a caller who does not feed it again never sees a message).
* Bytes behind a gzip body of known length that are in the same call are lost, unless nothing is decompressed.
* A folded line as the first field raises IndexError, every other malformed line ValueError.

warcfilter -H, warc2warc -D and arc2warc on any bytes (C110, C111)

* warc2warc -D ends with TypeError at a request record for `http://host` (no path), with AttributeError at every other complete message; it never decodes anything.
* warcfilter -H ends with NameError at the first response record whose content is not one complete HTTP response; a chunk of negative size hangs warcfilter -H, warc2warc -D and arc2warc.
* arc2warc writes a record whose content is shorter than announced as if it were complete, and raises only when the next record is asked for; a data record in front of any filedesc
  record leaves a WARC record cut off in the middle of its headers in the output.
* arc2warc takes the lines of a filedesc record out of its announced length: with a length that is one too small (51 instead of 52 in `lengthArc`) the length of the rest is -1, and the whole
  file is swallowed into the metadata record without an error.

Damaged files (C114)

* `warc2warc` on a file whose content is cut writes the head and only the complete pieces of 8192 bytes before the exception: the output looks like WARC, but its last record is incomplete, and up to
  8191 bytes that could be read are not in it. `warc2warc -Z` writes nothing of that record. No tool opens the files behind a damaged one.
* `warcindex` lists a record whose content is damaged (with the announced length) if it has a Content-Type and a Content-Length, and does not list it otherwise.

Other line ends (C112)

* `write_to(newline=b"\n")` makes files that the library itself reads without loss but that warcvalid rejects; with CR the library cannot read what it wrote (TypeError).

Buffers and several writers (C103, C104)

* `write_to(out, gzip=True)` calls `flush` on the gzip object and only then closes it. The close writes the end of the member into the
  buffer of `out`, which nobody flushes: when write_to returns the record is not complete in the file. A crash afterwards damages a record the
  program believes to be written, and another program that appends to the same file lands inside the member. `out.flush()` after the close would mend it.
* An uncompressed record that is not larger than the buffer (8192 bytes) reaches the file in one write; a larger one does not, so that two programs which
  append to one file are safe only as long as all records are small.
