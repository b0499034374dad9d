{"id": "C01", "title": "Unsigned integer packing is lossless", "statement": "Packing an array of unsigned integers, each representable in b bits (1<=b<=32), with compact_integer at any starting bit position without header, then unpacking with the same parameters returns exactly the original array, and neither call reads or writes outside a buffer that holds the stream plus one word.", "quantifier": "every token width 1..32, every bit offset, every array length, every stride, every array of values below 2^b", "why_tests_cant": "the value space is 2^32 per element times all offsets, widths and lengths; the carry between 32-bit words depends on the interplay of width and offset over the whole history of the stream", "anchors": ["src/packers/compact_integer.c: compact_integer, Pack, Unpack, packBit, pack32Bit", "include/bitPacking.h: stuff, extract"]}
{"id": "C02", "title": "Signed integer packing is lossless", "statement": "compact_integer in signed mode (op 3/4) restores every array of signed integers whose elements fit in b-bit two's complement (-2^(b-1) <= v < 2^(b-1)).", "quantifier": "every token width 1..32, offset, length, stride and admissible array", "why_tests_cant": "sign handling is by adding a bias modulo 2^32; tests sample few widths and never all boundary values", "anchors": ["src/packers/compact_integer.c: compact_integer, Pack, Unpack"]}
{"id": "C03", "title": "Packing only changes its own bits", "statement": "Packing n tokens of b bits at bit position o of a buffer leaves every bit before position o and every bit from position o+n*b on unchanged, so that adjacent packed fields never corrupt one another.", "quantifier": "all prior buffer contents, offsets, widths, lengths and token values", "why_tests_cant": "an overwrite of one neighbouring bit is visible only for particular neighbouring contents and alignments", "anchors": ["src/packers/compact_integer.c: compact_integer, Pack", "include/bitPacking.h: stuff"]}
{"id": "C04", "title": "Integer packing with a header and automatic width is lossless", "statement": "With a header and automatically chosen width (width argument -1) the unpacked array equals the original array.", "quantifier": "all unsigned arrays, offsets and strides", "why_tests_cant": "fails only for special value ranges (full 32-bit range at an unaligned position) that a test has to guess", "anchors": ["src/packers/compact_integer.c: compact_integer, FindMinMax, constructHeader, Pack, Unpack"]}
{"id": "C05", "title": "16-bit and 8-bit integer packers are lossless", "statement": "compact_short and compact_char (unsigned, headerless) restore every array whose elements are below 2^b.", "quantifier": "every width 1..16 (resp. 1..8), offset, length, stride, array", "why_tests_cant": "same stream mechanics as 32-bit packing with narrower element types; combinations of offset and width cannot be enumerated", "anchors": ["src/packers/compact_integer.c: compact_short, compact_char"]}
{"id": "C06", "title": "Field compression is lossless (minimum method)", "statement": "Compressing a 2-D field of nbits-bit tokens with the tile/minimum coder and decompressing it gives back every token.", "quantifier": "all ni, nj >= 2 (smaller fields are refused by armn_compress), nbits 1..16, all fields with tokens below 2^nbits", "why_tests_cant": "tile-width selection has data dependent special cases (constant tiles, 15/16-bit tiles); field contents cannot be enumerated", "anchors": ["src/compresseur/c_zfstlib.c: packTokensMinimum, unpackTokensMinimum, armn_compress"]}
{"id": "C07", "title": "Field compression is lossless (parallelogram method)", "statement": "Compressing a 2-D field of nbits-bit tokens with the parallelogram predictor and decompressing it gives back every token.", "quantifier": "all ni, nj >= 2, nbits 1..16, all fields with tokens below 2^nbits", "why_tests_cant": "prediction differences reach 17 bits plus sign and use escape codes; extreme combinations occur only in special fields", "anchors": ["src/compresseur/c_zfstlib.c: packTokensParallelogram, unpackTokensParallelogram, armn_compress"]}
{"id": "C08", "title": "Compression never grows a field and a refusal leaves it usable", "statement": "armn_compress either returns a length strictly smaller than that of the uncompressed packed field, with a stream that decompresses to the field, or returns -1 with the field left as it was.", "quantifier": "all fields, dimensions and widths", "why_tests_cant": "whether a field is incompressible depends on its contents", "anchors": ["src/compresseur/c_zfstlib.c: armn_compress"]}
{"id": "C09", "title": "Bit slicing get is the inverse of put", "statement": "f_bits_get with the same list of slice widths returns exactly the slices (masked to their width) stored by f_bits_put.", "quantifier": "all lists of slice widths 0..32 and all slice values", "why_tests_cant": "depends on the alignment history produced by the whole width list; the shipped test uses words with all bits alike, which hides misreads", "anchors": ["src/primitives/f_bit_slicer.c: f_bits_get, f_bits_put"]}
{"id": "C10", "title": "Run-length packing is lossless", "statement": "compact_rle unpacking returns the array that was packed, provided the token width leaves room for the repeat codes.", "quantifier": "all arrays, widths 3..32, offsets, strides", "why_tests_cant": "run boundaries interact with the maximum repeat count; the run structure of arrays cannot be enumerated", "anchors": ["src/packers/compact_rle.c: compact_rle"]}
{"id": "C11", "title": "IEEE truncation packing keeps exactly the leading bits", "statement": "Writing reals in the E (IEEE truncated) format with n bits and reading them back yields each 32-bit pattern with its leading n bits kept and the other bits zero.", "quantifier": "all n in 1..32, all array lengths and all bit patterns", "why_tests_cant": "in-place unpacking overlaps source and destination; errors show only for certain lengths", "anchors": ["src/primitives/ieeepak.F90: ieeepak"]}
{"id": "C12", "title": "Base-40 names convert back to themselves", "statement": "b40toc(ctob40(s)) returns s right-justified in 8 characters filled with '0' (the zero digit) for every string over the base-40 alphabet whose value fits the integer, and distinct such strings of equal length get distinct codes.", "quantifier": "all strings over the alphabet of admissible length", "why_tests_cant": "40^n strings; integer overflow bound must be located exactly", "anchors": ["src/base/cvt_base40.f: B40TOC, CTOB40"]}
{"id": "C13", "title": "Stream cipher decrypts what it encrypted", "statement": "arc4: encrypting a buffer and then processing the result with a context set up from the same key returns the original buffer; splitting the buffer into consecutive calls gives the same result as one call.", "quantifier": "all keys, all buffers, all ways of splitting", "why_tests_cant": "key and plaintext spaces are unbounded", "anchors": ["src/primitives/arc4.c: arc4_setup, arc4_crypt"]}
{"id": "C14", "title": "CRC detects burst errors", "statement": "calc_crc gives different values for two equally long buffers that differ only inside a window of at most two consecutive bytes, whatever the seed and whatever surrounds the window; and it depends linearly on the data.", "quantifier": "all buffers, seeds, positions and differing bytes", "why_tests_cant": "buffers of unbounded length", "anchors": ["src/primitives/calc_crc.c: calc_crc"]}
{"id": "C15", "title": "Record handles identify records", "statement": "A handle given out for a record of a random file decodes to exactly the file, directory page and entry it was made from; handles of different (file, page, entry) triples differ; a handle is a positive int.", "quantifier": "all file indices, page numbers and entry numbers within the documented limits", "why_tests_cant": "the combinations (1024 files x 4096 pages x 512 entries) are only sampled by tests", "anchors": ["src/fstd98/qstdir.h: MAKE_RND_HANDLE, INDEX_FROM_HANDLE, RECORD_FROM_HANDLE, PAGENO_FROM_HANDLE", "src/fstd98/xdf98.c: c_xdfloc2, c_xdfput"]}
{"id": "C16", "title": "Sequential handles identify record addresses", "statement": "A handle made for a record of a sequential file decodes to the file and the address of that record.", "quantifier": "all file indices below 128 and all record addresses the format allows", "why_tests_cant": "the cluster coding changes the granularity with the address, so errors appear only for particular address ranges", "anchors": ["src/fstd98/xdf98.c: make_seq_handle, address_from_handle"]}
{"id": "C17", "title": "Record descriptors survive the directory encoding", "statement": "fstprm/fstinf-style queries of a record return the descriptors given when it was written: dimensions, ip1..ip3, ig1..ig4, deet, npas, date, datyp, nbits, and the names over the 6-bit character set.", "quantifier": "all descriptor values within the documented field widths", "why_tests_cant": "the descriptors are cut into bit fields, some split over three places; all values of each field must survive independently of the others", "anchors": ["src/fstd98/qstdir.h: stdf_dir_keys, ascii6", "src/fstd98/fstd98.c: c_fstecr, c_fstprm, crack_std_parms"]}
{"id": "C18", "title": "Search criteria select exactly the records that agree with them", "statement": "A directory search matches a record exactly when every criterion that is not a wildcard (-1, blank name) equals the record's descriptor, dates being compared without their low three bits.", "quantifier": "all records and all combinations of criteria", "why_tests_cant": "2^8 wildcard combinations times all descriptor values; relies on a bit-mask comparison of packed words", "anchors": ["src/fstd98/fstd98.c: c_fstinfx", "src/fstd98/xdf98.c: next_match, c_xdfloc2"]}
{"id": "C19", "title": "A search sweep visits every matching record once", "statement": "fstinf followed by repeated fstsui (and fstinl) returns each live record that matches, once, in directory order, and then reports the end.", "quantifier": "all directory contents (any number of pages), all criteria, all interleavings of deletions made before the sweep", "why_tests_cant": "number of directory pages and pattern of deleted entries unbounded", "anchors": ["src/fstd98/xdf98.c: c_xdfloc2, next_match", "src/fstd98/fstd98.c: c_fstinfx, c_fstsui, c_fstinl"]}
{"id": "C20", "title": "Deleting a record removes that record only", "statement": "After a successful fsteff the record is not found any more, a second fsteff on its handle fails, and every other record keeps its descriptors, data and handle.", "quantifier": "all histories of writes and deletes", "why_tests_cant": "depends on the history", "anchors": ["src/fstd98/xdf98.c: c_xdfdel, next_match", "src/fstd98/fstd98.c: c_fsteff"]}
{"id": "C21", "title": "A written record can be read back during the session", "statement": "Immediately after a successful append, and after any later appends and deletions of other records, the handle of the record leads to the very words that were written.", "quantifier": "all histories of appends, rewrites and deletions on a random file", "why_tests_cant": "record placement depends on the whole history; overlaps show only in special sequences", "anchors": ["src/fstd98/xdf98.c: c_xdfput, c_xdfget2, add_dir_page"]}
{"id": "C22", "title": "Closing and reopening a file preserves its records", "statement": "After any history of operations followed by close, opening the file again shows exactly the records that were live at close, in the same order, with the same descriptors and data.", "quantifier": "all histories, any number of directory pages", "why_tests_cant": "unbounded histories and directory sizes", "anchors": ["src/fstd98/xdf98.c: c_xdfcls, c_xdfopn, c_xdfput, add_dir_page"]}
{"id": "C23", "title": "A crash before close does not lose previously closed records", "statement": "If the process dies at any point after the file was opened for append/update and before close starts writing the directory, the records that existed at the previous close are all still readable, unless a record was rewritten in place.", "quantifier": "all crash points and all histories of appends and deletions since the open", "why_tests_cant": "crash points cannot be enumerated by tests", "anchors": ["src/fstd98/xdf98.c: c_xdfput, add_dir_page, c_xdfcls, c_xdfopn"]}
{"id": "C24", "title": "A file left half-closed is not opened for writing", "statement": "If the process dies while close is writing the directory, the next attempt to open the file for writing is refused.", "quantifier": "all crash points between the first and the last directory write of close", "why_tests_cant": "needs fault injection at each write", "anchors": ["src/fstd98/xdf98.c: c_xdfcls, c_xdfopn"]}
{"id": "C25", "title": "Directory checksum catches any damage confined to one word", "statement": "A directory page written by close passes the checksum test at open, and a page in which exactly one word was altered fails it.", "quantifier": "all page contents, all positions, all altered values", "why_tests_cant": "all words values cannot be enumerated", "anchors": ["src/fstd98/xdf98.c: c_xdfcls, c_xdfopn"]}
{"id": "C26", "title": "Record counts agree with the directory", "statement": "The record count kept in the file header equals the number of live directory entries after any history of appends, rewrites and deletions.", "quantifier": "all histories", "why_tests_cant": "counter drift depends on history", "anchors": ["src/fstd98/xdf98.c: c_xdfput, c_xdfdel", "src/fstd98/fstd98.c: c_fstnbrv"]}
{"id": "C27", "title": "Rewriting replaces the record it was asked to replace", "statement": "fstecr with rewrite replaces at most one existing record, one having the same nomvar, typvar, etiket, ip1, ip2, ip3 and date, and leaves every other record unchanged.", "quantifier": "all directory contents and all descriptor values", "why_tests_cant": "wrong victim only in particular directories", "anchors": ["src/fstd98/fstd98.c: c_fstecr", "src/fstd98/xdf98.c: c_xdfput"]}
{"id": "C28", "title": "Linked files are searched as one", "statement": "After fstlnk a sweep over the first unit returns each matching record of every linked file exactly once.", "quantifier": "all lists of linked files and directory contents", "why_tests_cant": "number of files and pages unbounded", "anchors": ["src/fstd98/xdf98.c: c_xdflnk, c_xdfloc2, next_match"]}
{"id": "C29", "title": "Calendar date and Julian day number are inverse to each other", "statement": "datec(jdatec(y,m,d)) = (y,m,d) for every valid Gregorian date of years 0..9999, and jdatec(datec(j)) = j for every day number in that range; consecutive days have consecutive numbers.", "quantifier": "all dates", "why_tests_cant": "3.6 million dates and truncating integer division of negative numbers; tests sample a few", "anchors": ["src/base/datec.f: DATEC", "src/base/jdatec.f: JDATEC", "src/base/moduledate.f90: jd (statement function)"]}
{"id": "C30", "title": "Date stamps decode to the date they encode", "statement": "newdate: converting a printable date/time to a CMC stamp and back returns the date/time (to 5 s after 1980, to the hour before), and true date <-> stamp conversions are mutually inverse.", "quantifier": "all valid dates from 1900 to 2235 and all times at the stated resolution", "why_tests_cant": "two different encodings of stamps overlap in one integer space", "anchors": ["src/base/moduledate.f90: naetwed (newdate)"]}
{"id": "C31", "title": "Different date-times have different stamps", "statement": "Two different date-times (at the stamp resolution) never get the same stamp, and later new-style dates have larger stamps.", "quantifier": "all pairs of valid date-times", "why_tests_cant": "pairs of dates cannot be enumerated", "anchors": ["src/base/moduledate.f90: naetwed (newdate)"]}
{"id": "C32", "title": "Adding hours and taking differences agree", "statement": "difdat(incdat(d,n),d) = n and incdat(d2, difdat(d1,d2)) = d1 for valid dates and whole hours.", "quantifier": "all dates and increments that stay in range, for each calendar option", "why_tests_cant": "depends on range splits at 1980 and on calendar options", "anchors": ["src/base/moduledate.f90: idnactr, ddiaftr", "src/base/incdat.f"]}
{"id": "C33", "title": "Leap-year suppression is consistent", "statement": "With the 365-day calendar option, adding 365 days to any date gives the same month, day and time one year later, and 29 February is never produced.", "quantifier": "all dates and increments", "why_tests_cant": "leap year pattern over centuries", "anchors": ["src/base/moduledate.f90: LeapYear_Adjust_int, CcclxDays_Adjust_int, idnactr"]}
{"id": "C34", "title": "Record dates survive the octal recoding", "statement": "The date stamp stored by fstecr and returned by fstprm is the stamp given, for every stamp the format admits.", "quantifier": "all 32-bit stamps", "why_tests_cant": "2^32 values, last digit recoding", "anchors": ["src/fstd98/fstd98.c: c_fstecr, c_fstprm, c_fstinfx"]}
{"id": "C35", "title": "A variable read from the whiteboard has its last written value", "statement": "After any history of whiteboard operations, getting a variable returns the value of the most recent successful put to that (case-insensitive) name, and puts to other names do not affect it.", "quantifier": "all histories of puts and gets on any number of variables", "why_tests_cant": "storage is shared lines in chained pages; interference depends on history", "anchors": ["src/whiteboard/WhiteBoard_c.c: c_wb_put, c_wb_get, c_wb_lookup, new_line, lookup_line"]}
{"id": "C36", "title": "Protected whiteboard variables never change", "statement": "A variable that is read-only (by option, or after lock) keeps its value whatever puts are attempted, and the attempts report an error.", "quantifier": "all histories", "why_tests_cant": "history dependent", "anchors": ["src/whiteboard/WhiteBoard_c.c: c_wb_put, c_wb_lock, wb_cb_read_only"]}
{"id": "C37", "title": "A refused put leaves the old value", "statement": "A put that returns an error leaves the variable's previous value readable.", "quantifier": "all histories and all erroneous puts", "why_tests_cant": "history dependent; error paths are many", "anchors": ["src/whiteboard/WhiteBoard_c.c: c_wb_put, c_wb_get"]}
{"id": "C38", "title": "Whiteboard checkpoint and reload restore the variables", "statement": "After checkpoint, c_wb_reload in a fresh process restores every non-local variable with its value.", "quantifier": "all whiteboard contents", "why_tests_cant": "number and size of variables unbounded", "anchors": ["src/whiteboard/WhiteBoard_c.c: c_wb_checkpoint, c_wb_reload"]}
{"id": "C39", "title": "The page cache of word-addressable files is transparent", "statement": "With paging enabled, every read returns what a plain file subjected to the same sequence of writes would return, and after close the file contains exactly that.", "quantifier": "all histories of reads and writes, page sizes, page counts and evictions", "why_tests_cant": "eviction order and partial-page fills depend on history", "anchors": ["src/primitives/c_baseio.c: wa_page_read, wa_page_write, scrap_page, get_new_page, qqcwawr, qqcward"]}
{"id": "C40", "title": "Word-addressable read returns the last words written", "statement": "Without paging, waread after wawrit returns for each word the last value written to it, words never written inside the file read as zero, and reads past the end are cut at end of file.", "quantifier": "all histories", "why_tests_cant": "history dependent; holes created by writing past the end", "anchors": ["src/primitives/c_baseio.c: c_wawrit2, c_waread2"]}
{"id": "C41", "title": "Float packing error is bounded by the quantum", "statement": "Unpacking a field packed with float_packer with n bits gives values that differ from the originals by at most one quantum, where a quantum is a power of two at most about range/2^(n-1).", "quantifier": "all fields of finite floats, n in 1..16", "why_tests_cant": "float value space and extremes of exponent range", "anchors": ["src/packers/float_packer.c: c_float_packer, c_float_unpacker"]}
{"id": "C42", "title": "Missing values survive encoding", "statement": "Decoding a field after encoding restores the missing-value flag exactly at the positions that had it and leaves the other values unchanged, whenever the largest value leaves room.", "quantifier": "all fields, types and widths", "why_tests_cant": "positions of missing data and value ranges cannot be enumerated", "anchors": ["src/fstd98/fst_missing.c: fst_*_encode_missing, fst_*_decode_missing, EncodeMissingValue, DecodeMissingValue"]}
{"id": "C43", "title": "Selection directives decide by first satisfied request", "statement": "A record is accepted exactly when the first active request it satisfies is a desire request, or when it satisfies none and there is no desire request; a request is satisfied when each of its criteria is.", "quantifier": "all request tables and all records", "why_tests_cant": "request tables are lists of arbitrary criteria", "anchors": ["src/fstd98/excdes_new.c: C_fstmatch_parm, match_ip, Xc_Select_*"]}
{"id": "C44", "title": "Serializer jars are first-in first-out", "statement": "Data inserted in a jar come out in the order and with the values inserted; an insert that does not fit fails and leaves the jar unchanged; nothing outside the jar is written.", "quantifier": "all sequences of inserts and extracts, all sizes and positions", "why_tests_cant": "history and size dependent", "anchors": ["src/serializer/jar_mod.F90: jar_put_into, jar_get_outof"]}
{"id": "C45", "title": "Index sort returns a sorted permutation", "statement": "ipsort/ipsorti return a permutation of 1..n that lists the values in non-decreasing order, and they terminate.", "quantifier": "all arrays of all lengths", "why_tests_cant": "n! orders", "anchors": ["src/base/ipsort.c: csortr, csorte, ipsort, ipsorti"]}
{"id": "C46", "title": "In-place sort returns a sorted permutation", "statement": "isort/sort leave the array a permutation of itself in non-decreasing order and only touch its elements.", "quantifier": "all arrays of all lengths", "why_tests_cant": "n! orders", "anchors": ["src/base/isort.f: ISORT", "src/base/sort.f: SORT"]}
{"id": "C47", "title": "Grid descriptors convert back to themselves", "statement": "For grids of type E, L and + the integer descriptors obtained from real parameters on the coding lattice decode to these parameters.", "quantifier": "all lattice points of the documented ranges", "why_tests_cant": "four dimensional parameter space with bit sharing between descriptors", "anchors": ["src/base/xgaig.f90: CXGAIG", "src/base/igaxg.f90: CIGAXG"]}
{"id": "C48", "title": "Encoded levels decode to the same level", "statement": "convip: a (value, kind) pair encoded in the new style decodes to the same kind and a value within half a unit of the pseudo mantissa; encoded ips are normalised, so that re-encoding a decoded ip is stable.", "quantifier": "all values in range and all kinds", "why_tests_cant": "10^10 range with pseudo exponent, several kinds share codes", "anchors": ["src/fstd98/convip_plus.f90: CONVIP_plus, conv_kind_15"]}
{"id": "C49", "title": "BURP blocks give back elements and values", "statement": "A block added to a report is extracted with the same element list and values, missing values stay missing and no regular value becomes missing; adding or deleting other blocks does not alter it.", "quantifier": "all reports, blocks, widths and values", "why_tests_cant": "history dependent, width is chosen from data", "anchors": ["src/fstd98/burp98.c: c_mrbadd, c_mrbxtr, c_mrbdel, burp_nbit_datyp"]}
{"id": "C50", "title": "Table search brackets the value", "statement": "ez_cherche returns an index i with table(i) < val <= table(i+1) for every ascending table and every value inside its range (first interval for values at or below the first entry, last for values above the last).", "quantifier": "all ascending tables of length >= 2 and all values", "why_tests_cant": "unbounded tables", "anchors": ["src/interp/ez_cherche.inc: ez_cherche"]}
{"id": "C51", "title": "Byte swapping twice is the identity", "statement": "swap_buffer_endianness applied twice restores the buffer, and applied once it reverses the four bytes of each word.", "quantifier": "all buffers", "why_tests_cant": "2^32 words", "anchors": ["src/primitives/swap_buffer.c: swap_buffer_endianness"]}
{"id": "C52", "title": "Compression keeps every level of a field", "statement": "When armn_compress accepts a field of ni x nj x nk values, decompressing restores all ni*nj*nk values.", "quantifier": "all dimensions including nk > 1, all fields", "why_tests_cant": "the published tests compress two-dimensional fields; a loss in the higher levels needs a field whose levels differ", "anchors": ["src/compresseur/c_zfstlib.c: armn_compress, c_fstzip, c_fstunzip", "src/fstd98/fstd98.c: c_fstecr, c_fstluk"]}
{"id": "C53", "title": "Integer fields written with extra compression read back", "statement": "An unsigned integer field of values below 2^nbits (nbits <= 16) written with data type 130 and read with fstluk is returned unchanged, whether or not the compressor accepted it.", "quantifier": "all dimensions, widths and values", "why_tests_cant": "whether the compressor refuses depends on dimensions and data; the fallback path and the top bit are exercised only by special fields", "anchors": ["src/fstd98/fstd98.c: c_fstecr (case 130), c_fstluk (case 130), memcpy_16_32, memcpy_32_16"]}
{"id": "C54", "title": "Fourteen-word date array", "statement": "Reading the 14-word date array of a stamp (mode -4) and building the stamp from that array (mode 4) gives back the stamp and the date it was made from, and the weekday word advances cyclically from 1 to 7 from each day to the next.", "quantifier": "all dates of the stamp range that a stamp can hold exactly", "why_tests_cant": "the array is exercised on a few dates; weekday errors show up only around century years", "anchors": ["src/base/moduledate.f90: itdmag2, dmagtp2"]}
{"id": "C55", "title": "Levels encoded in the old style", "statement": "A height, sigma, pressure or arbitrary code of the documented range encoded in the old style (mode 3) decodes to the same kind and to a value within half a unit of the code (5 m, 0.0001, 1 mb and one twentieth of the next power of ten under 10 mb, 1).", "quantifier": "all values of the ranges and any rounding with the error bounds of single precision", "why_tests_cant": "failures lie in narrow bands just under the limits of the ranges, which round values never hit", "anchors": ["src/fstd98/convip_plus.f90: CONVIP_plus (mode 3, mode -1)"]}
{"id": "C56", "title": "Search for a block in a report", "statement": "c_mrbloc started from block number n returns the number of the first later block whose family equals the one asked for and whose type agrees on every component that is not a wildcard, and -1 exactly when there is none.", "quantifier": "all histories of additions, deletions and replacements, all families, types and wildcards", "why_tests_cant": "the combinations of the three wildcard bits, the two ways of giving the descriptor and blocks moved by deletions are far more than a test list holds", "anchors": ["src/fstd98/burp98.c: c_mrbloc, c_mrbadd, c_mrbdel"]}
{"id": "C57", "title": "Compressed IEEE fields", "statement": "A float field that c_armn_compress32 accepts at znbits bits an element is restored by c_armn_uncompress32 with the last 32-znbits bits of each element cleared and all others unchanged, whatever lies behind the stream, and the compressor writes nothing outside its buffer.", "quantifier": "all fields of 16 by 16 points or more, all bit patterns, widths from 1 to 32", "why_tests_cant": "the stream depends on runs of signs, spread of exponents and size of tiles; tests compress a few smooth fields", "anchors": ["src/compresseur/armn_compress_32.c: c_armn_compress32, c_armn_uncompress32, packTokensParallelogram32, packTokensParallelogram_8", "src/fstd98/fstd98.c: c_fstecr, c_fstluk (case 133)"]}
{"id": "C58", "title": "Run-length coding of single bits", "statement": "An array of zeros and ones coded by pack1bitRLE is restored by unpack1bitRLE, the stream takes at most eight bits for seven elements and a partial word, and nothing in front of it is changed.", "quantifier": "all lengths and all arrays of bits", "why_tests_cant": "lengths 7, 8, 62, 63, 255, 256 of runs and their positions interact; a test list covers few of the combinations", "anchors": ["src/compresseur/armn_compress_32.c: pack1bitRLE, unpack1bitRLE"]}
{"id": "C59", "title": "Quantised float packing", "statement": "A field of floats packed by compact_float and unpacked with the same arguments comes back with an error of at most one step, a step being at most 2(max-min)/(2^nbits-1), up to the rounding of single precision; the minimum is exact, order is preserved, missing values come back as missing values, and only the header and the bits of the tokens are written.", "quantifier": "all fields, all token widths from 1 to 32, all header positions and bit offsets, with and without missing values, any correctly rounded arithmetic", "why_tests_cant": "the error depends on the position of the values between powers of two, on the header style and on the offset in the word; tests compare a few fields with a tolerance", "anchors": ["src/packers/compact.tmplc: compact_float", "src/packers/compact.c", "src/fstd98/fstd98.c: c_fstecr, c_fstluk (data types 1 and 129)"]}
{"id": "C60", "title": "Coupled coding of levels and times", "statement": "A level or range of levels and a time or range of times (and a third value when there is no range) coded by EncodeIp are returned by DecodeIp with the same kinds, values within the precision of the code, ranges of levels from the lower level to the higher one and ranges of times from the earlier to the later one, and status 0; and whatever the codes, a status without the error flag comes with a level and a time in that order.", "quantifier": "all kinds and values, all orders of the bounds, all codes, any content of uninitialised variables, any rounding to nearest", "why_tests_cant": "nine level kinds with three orderings, ranges in either argument and old style codes give more paths than the examples; results that depend on uninitialised variables look right on one machine", "anchors": ["src/fstd98/convert_ip123.f90: encode_ip_0, decode_ip_0", "src/fstd98/convip_plus.f90"]}
{"id": "C61", "title": "Coding of three values with kinds", "statement": "Three values with kinds, the first a level and the second a time or a level, coded by ConvertPKtoIP are returned by ConvertIPtoPK with the same kinds and values within the precision of the code, two levels of a kind and a time coming back as level, time, level from the lower level to the higher one, and two times from the later to the earlier one; the warning flag is set exactly when the second value is a level.", "quantifier": "all kinds and values, all orders, all codes, any rounding to nearest", "why_tests_cant": "combinations of kinds and orders are many and the exchange of codes and values must agree in both functions", "anchors": ["src/fstd98/convert_ip123.f90: encode_ip_2, decode_ip_2"]}
{"id": "C62", "title": "MD5 digests and keyed codes", "statement": "md5_starts, any number of md5_update calls and md5_finish give the MD5 digest of RFC 1321 of the concatenated inputs, with the constants defined by the sine, and the md5_hmac functions give the keyed code of RFC 2104; neither depends on what the context held before.", "quantifier": "all messages of any length, all cuts in parts of less than 2^31 bytes, all keys, any initial memory", "why_tests_cant": "the code computes on 64-bit variables that collect rubbish above bit 31, and the carry of the length and the padding need messages of many lengths and of more than 2^32 bytes; test vectors are a dozen short strings", "anchors": ["src/primitives/md5.c: md5_starts, md5_process, md5_update, md5_finish, md5, md5_file, md5_hmac_starts, md5_hmac_finish, md5_hmac"]}
{"id": "C63", "title": "Names of elements and types of blocks", "statement": "An element ABBCCC with A up to 3, BB up to 63 and CCC up to 255 is coded by mrbcov and mrbcol on 16 bits, two for A, six for BB and eight for CCC, and decoded by mrbdcv and mrbdcl to itself; every code of 16 bits is the code of its decoded element; mrbtyp joins and splits nature, type and sub-type of a block without loss.", "quantifier": "all elements of these ranges, all codes, all lists, all types", "why_tests_cant": "65536 codes times decimal forms; tests try the elements of one table", "anchors": ["src/burp98_f/mrbcov.F90", "src/burp98_f/mrbdcv.F90", "src/burp98_f/mrbcol.F90", "src/burp98_f/mrbtyp.F90"]}
{"id": "C64", "title": "Table of elements", "statement": "Sorting the table of elements ends, keeps all its rows and puts them in order; the search returns a row of the element if there is one and nothing otherwise; rows added by the user with mrbsct are found as well.", "quantifier": "all tables of any length, with equal codes too, all elements, all rows of the user", "why_tests_cant": "the search depends on the whole table and on its length; tests look up the elements they define", "anchors": ["src/burp98_f/qbrptri.F90", "src/burp98_f/bufrchr.F90", "src/burp98_f/mrbcvt.F90: mrbcvt, mrbsct"]}
{"id": "C65", "title": "Conversion of units", "statement": "Codes converted to reals by mrbcvt and back are unchanged, a real value that is converted to a code and back differs by at most half a unit of the last digit and the rounding of single precision, missing values stay missing and no other value becomes missing.", "quantifier": "all codes, values, scales from -12 to 12 and references, any rounding with half a unit of error", "why_tests_cant": "the results depend on the rounding of three operations; tests convert a few values and compare with a tolerance", "anchors": ["src/burp98_f/mrbcvt.F90: mrbcvt"]}
{"id": "C66", "title": "Positions of target levels", "statement": "Interp1D_FindPos gives for each target of each set the index of a source level such that the target lies between this level and the next one, the first index for targets before the first level and the last but one for targets after the last, and reads no element outside of the levels.", "quantifier": "2 to 2800 levels in strictly increasing or decreasing order, all targets, any number of sets, any rounding that keeps single precision numbers", "why_tests_cant": "the search halves a real index and stops at an uncertainty of 0.95, not 0.5: whether it always ends on the right index depends on the number of levels and on all paths of the search", "anchors": ["src/interpv/Interp1D_FindPos_Body.inc"]}
{"id": "C67", "title": "Interpolation between levels", "statement": "At a source level each interpolation gives the state of that level; linear interpolation reproduces affine functions, stays between the two states and has a bounded rounding error; the Lagrange interpolation and the one with derivatives reproduce cubic polynomials, with their derivative for the latter; nearest neighbour takes a level at the smallest distance of all; where extrapolation is not enabled, targets beyond the levels take the state of the closest end.", "quantifier": "all levels in either order, all states and targets, all switches; exact arithmetic for reproduction, any rounding for the error, the neighbour and the clamps", "why_tests_cant": "formulas with divided differences and sums of derivatives can be wrong in one coefficient and look right on smooth fields compared with tolerances", "anchors": ["src/interpv/Interp1D_Linear_Body.inc", "src/interpv/Interp1D_CubicLagrange_Body.inc", "src/interpv/Interp1D_CubicWithDerivs_Body.inc", "src/interpv/Interp1D_NearestNeighbour_Body.inc"]}
{"id": "C68", "title": "Extrapolation beyond levels", "statement": "Extrap1D_Fixed and Extrap1D_LapseRate replace exactly the values of targets beyond the source levels on a side that is enabled, by the fixed value or the line of given slope from the end level, and Extrap1D_Abort stops the program exactly for such targets.", "quantifier": "all levels in either order, all targets and switches", "why_tests_cant": "the tests on positions that make the code faster are right only if positions are, and depend on the number of levels", "anchors": ["src/interpv/Extrap1D_Fixed_Body.inc", "src/interpv/Extrap1D_LapseRate_Body.inc", "src/interpv/Extrap1D_Abort_Body.inc"]}
{"id": "C69", "title": "Threads of the Lagrange interpolation", "statement": "The value that Interp1D_CubicLagrange computes for a target does not depend on the order in which the threads of its parallel loop run.", "quantifier": "all schedules of all numbers of threads", "why_tests_cant": "races show only with OpenMP, several threads and unlucky timing", "anchors": ["src/interpv/Interp1D_CubicLagrange_Body.inc: lines 110-146"]}
{"id": "C70", "title": "Named arrays", "statement": "Calls of gmm_create, gmm_get, gmm_delete, gmm_rename, gmm_getmeta and gmm_updatemeta are answered as by a map from names to arrays with metadata: a variable is found with its own array and metadata until it is deleted or renamed, and no call changes another variable or its array.", "quantifier": "all programs of such calls in any order, all names, types, sizes and contents, up to 2048 creations", "why_tests_cant": "the directory, the cursor, the pointer tables of 20 types and the memory must stay consistent after any sequence of calls; tests make a few variables", "anchors": ["src/gmm/rmn_gmm_mod.F90", "src/gmm/gmm_create.tmpl90", "src/gmm/gmm_get.tmpl90", "src/gmm/gmm_dealloc_ptr.tmpl90", "src/gmm/gmm_pointer_table.tmpl90"]}
{"id": "C71", "title": "Shuffle of time levels", "statement": "gmm_shuffle hands each name of its list on to the variable before it: what was found under a name is found under the next one, what was under the last name is found under the first one, and no other variable changes; where there is no variable under a name there is none under the next one afterwards.", "quantifier": "all states and all lists of names", "why_tests_cant": "models call it with two or three names that all exist; missing variables and longer lists are the other cases", "anchors": ["src/gmm/rmn_gmm_mod.F90: gmm_shuffle, gmm_rename"]}
{"id": "C72", "title": "Restart of named arrays", "statement": "After gmm_checkpoint_all has written the restart file and another program has read it, exactly the variables with the restart attribute exist, with their types, layouts, attributes and array elements, and gmm_create with the same dimensions hands back the array that was saved.", "quantifier": "all programs before the restart, all calls after it", "why_tests_cant": "the file is written type by type from the directory and read into other places of the directory and the pointer tables", "anchors": ["src/gmm/gmm_checkpoint.tmpl90", "src/gmm/rmn_gmm_mod.F90: gmm_checkpoint_all"]}
{"id": "C73", "title": "Codes of 16, 24 and 32 bits", "statement": "update_crc_ne with 16, 24 or 32 bits, called once to start, any number of times and once to end, gives the remainder of the message polynomial by the generator of the code, independently of the cut of the message into calls and of the memory before the first call; tokens of several bytes are taken highest byte first; crc32 gives the same code as update_crc_ne with 32 bits; two messages which differ only within a burst not longer than the code have different codes.", "quantifier": "all messages of any length, all cuts, all token sizes that are powers of two, all bursts", "why_tests_cant": "the tables have 256 constants each and the loops turn the order of bytes; the self test is one string per code", "anchors": ["src/primitives/crc_16_24_32.c", "src/primitives/crc16_.c", "src/primitives/crc24_.c", "src/primitives/crc32_.c", "src/primitives/crc32.c"]}
{"id": "C74", "title": "Table of grids", "statement": "Definitions of grids get the same number exactly when they are the same grid, whatever other grids were defined before and whatever their codes; the grid under a number is the one that was defined; a released number is free again when all its users have released it, and no other grid is changed by a release.", "quantifier": "all sequences of definitions and releases, all sizes, parameters and axes, all codes", "why_tests_cant": "chains of grids with equal codes, tables that grow in chunks and counts of users depend on the whole history; tests define a few grids and never release them", "anchors": ["src/interp/ez_identifygrid.c", "src/interp/ez_findgrid.c", "src/interp/ez_addgrid.c", "src/interp/gdrls.c", "src/interp/ezgdef_fmem.c", "src/interp/ezgdef_ffile.c", "src/interp/ez_calc_crc.c"]}
{"id": "C75", "title": "Pairs of grids", "statement": "After c_ezdefset of an output and an input grid, c_find_gdin and ez_find_gdin_in_gset find the one place of the pair in the table of the output grid, whatever other pairs are defined before or later and however large the table grows; each input grid has one place.", "quantifier": "all sequences of calls, all numbers of grids", "why_tests_cant": "the table is open addressed and grows with the 63rd, 125th ... input grid; tests use a few grids with small numbers, which never collide", "anchors": ["src/interp/ezdefset.c", "src/interp/ez_find_gdin.c", "src/interp/ez_find_gdin_in_gset.c", "src/interp/ez_statics.c"]}
{"id": "C76", "title": "Interpolation on a regular grid", "statement": "The nearest neighbour kernel returns the value of a grid point at most half a step away; the bilinear kernel reproduces fields a+bx+cy+dxy, returns the value of the point at grid points and stays between the four values around the position; the bicubic kernel reproduces polynomials of degree three in each direction and the values at grid points; no kernel reads outside of the array.", "quantifier": "all fields, all sizes of at least two (bilinear) or four (bicubic) columns and rows, all positions", "why_tests_cant": "clamps at the four borders, truncation of positions and constants with few digits matter only at some positions; tests interpolate smooth fields and look at the fourth digit", "anchors": ["src/interp/ez_rgdint_0.inc", "src/interp/ez_rgdint_1_nw.inc", "src/interp/ez_rgdint_3_nw.inc", "src/interp/cubic8.cdk", "src/interp/zlin8.cdk"]}
{"id": "C77", "title": "Interpolation across the seam of a global grid", "statement": "On a grid that goes round the earth the kernels that wrap give at every position the same value as the plain kernels on the array widened with copies of its columns.", "quantifier": "all fields, all sizes, all positions, both kinds of global grids", "why_tests_cant": "the columns beside the position are found with remainders and corrections that matter only in the last and the first cells", "anchors": ["src/interp/ez_rgdint_1_w.inc", "src/interp/ez_rgdint_3_w.inc"]}
{"id": "C78", "title": "Interpolation on a grid with irregular axes", "statement": "With increasing axes the bilinear kernels are linear between neighbouring points and give their values at grid points; the bicubic kernels reproduce polynomials of degree three in each coordinate at the coordinates of the position and the values at grid points; across the seam of a global grid they give the values of the plain kernels on widened axes and arrays.", "quantifier": "all increasing axes, all fields, all sizes, all positions", "why_tests_cant": "the tables of inverse distances and the coordinates are computed in two places with different formulas for the first and last cells; tests use axes that start at zero and are regular", "anchors": ["src/interp/ez_nwtncof.inc", "src/interp/ez_irgdint_1_nw.inc", "src/interp/ez_irgdint_1_w.inc", "src/interp/ez_irgdint_3_nw.inc", "src/interp/ez_irgdint_3_w.inc"]}
{"id": "C79", "title": "Socket loops", "statement": "Whatever the outcomes of the system calls (transfers of any size, interruptions, calls that would block, errors), the loops that write to and read from a socket move a prefix of the bytes, in order and once each; they report success exactly when all bytes asked for were moved, and interruptions and waits only delay them.", "quantifier": "all sequences of outcomes of write, read and select; all data", "why_tests_cant": "a test on one machine sees whole transfers; partial transfers, interruptions and full socket buffers are rare and not reproducible", "anchors": ["src/primitives/gossip_sock.c: write_ft_nonblocking_socket, read_ft_nonblocking_socket, read_ft_nonblocking_socket_count"]}
{"id": "C80", "title": "Exchange of a record between two programs", "statement": "write_record in one program and read_record in another, on machines of either byte order, transfer the values of the elements: under every interleaving of the two programs and every cut of the streams the exchange ends, the reader has the elements in its own byte order and the right count, the array of the writer is as before, and no byte is left on the connection.", "quantifier": "all records of elements of 1, 2, 4 or 8 bytes below 2 GB, both byte orders on both sides, all interleavings", "why_tests_cant": "a test runs one interleaving on machines of one byte order", "anchors": ["src/primitives/gossip_sock.c: write_record, read_record, check_swap_records, put_int32_to_channel, get_int32_from_channel, send_ack_nack, get_ack_nack", "src/PUBLIC_INCLUDES/rmn/gossip.h: swap_2, swap_4, swap_8"]}
{"id": "C81", "title": "Exchange of a record that is refused or interrupted", "statement": "Whatever the other side sends and whatever fails, read_record stores nothing outside the buffer of the caller, returns only records of the size requested, and leaves the connection ready for the next record when it refuses one; write_record leaves the array of the caller as it was.", "quantifier": "all peers, all failures, all sizes", "why_tests_cant": "the paths are taken only when the two programs disagree or the network fails", "anchors": ["src/primitives/gossip_sock.c: read_record, write_record, swallow_data"]}
{"id": "C82", "title": "Time-outs of channels", "statement": "The time-out set for a channel is the one that is used for it until it is set again; the time-outs of the other channels are not changed; a channel without a time-out set has the default one.", "quantifier": "all sequences of openings and settings, all values", "why_tests_cant": "the table is searched in two ways over two ranges; tests set one time-out of one channel", "anchors": ["src/primitives/client_timeout.c"]}
{"id": "C83", "title": "Table of channels", "statement": "The name of a channel is the text before the first blank; the numbers handed out by mgi_init are different and valid, mgi_term looks only at channels of the table, and a channel is connected in the mode in which it was opened.", "quantifier": "all names, all sequences of calls, all outcomes of the attempts to connect", "why_tests_cant": "tests open one or two channels, on a server that answers at once", "anchors": ["src/primitives/mgilib2.c: strcopy, mgi_init, mgi_clos, mgi_term, mgi_open, retry_connect"]}
{"id": "C84", "title": "Fields are read back as they were written, for each data type", "statement": "A field given to c_fstecr with a data type and a packing density is read by c_fstluk: integers, characters and raw data come back equal, IEEE reals keep their leading bits, packed reals are within the precision of the packing; elements of the array of the caller beyond the field are not touched.", "quantifier": "all dimensions, all densities, all element lengths, all values", "why_tests_cant": "there are about eight hundred combinations of type, density and element length, each with its own path through two switches; the published tests write a few", "anchors": ["src/fstd98/fstd98.c: c_fstecr (758-1384), c_fstluk (2135-2472)", "src/fstd98/fstd98.c: c_fst_data_length"]}
{"id": "C85", "title": "The entry tells the reader how missing values were coded", "statement": "When a field is flagged as having missing values and these were coded in the packed data, the entry of the record has the flag, and the type and width of the entry make the reader choose the decoder of the kind of elements that was coded.", "quantifier": "all data types, densities and element lengths", "why_tests_cant": "the coder is chosen by the requested type, the decoder by the stored one; these differ when a type is replaced by another", "anchors": ["src/fstd98/fstd98.c: c_fstecr (806-951, 1037, 1130-1368), c_fstluk (2455-2466)", "src/fstd98/fst_missing.c: EncodeMissingValue, DecodeMissingValue"]}
{"id": "C86", "title": "Copies of records", "statement": "A record read and written in image mode (as by editfst, without unpacking) has the same type, width and flag, and is read back as the original.", "quantifier": "all types, dimensions and contents of records", "why_tests_cant": "the number of words is computed again by reader and writer, by type; a test copies a few types", "anchors": ["src/fstd98/fstd98.c: c_fstecr (1100-1126), c_fstluk (2248-2268), image_mode_copy"]}
{"id": "C87", "title": "Compressed reals are read back as uncompressed ones", "statement": "A field of reals written with additional compression (types 129 and 134) is read back exactly as the same field written without (types 1 and 6), whether the compressor keeps or refuses it, and neither writer nor reader leaves its buffers.", "quantifier": "all dimensions, all numbers of bits up to 16, all values, all states of uninitialised work arrays", "why_tests_cant": "acceptance by the compressor depends on the values; the sizes of record and work field are computed by separate formulas that agree except for fields whose compressed size is near the limit", "anchors": ["src/fstd98/fstd98.c: c_fstecr (953-1005, 1164-1190, 1329-1352), c_fstluk (2181-2229, 2281-2297, 2416-2430)", "src/compresseur/c_zfstlib.c: armn_compress", "src/packers/float_packer.c", "src/packers/compact.tmplc"]}
{"id": "C88", "title": "Units are given to one file at a time", "statement": "No unit is in two entries of the file table; a unit chosen by c_fnom was not in use and is the largest free one of its range; a unit in use is refused without effect; a call for one unit leaves the others alone; a refused or closed unit is free again.", "quantifier": "all sequences of calls of c_fnom, c_fclos, c_waopen2 and c_waclos2, all names and types, all answers of the system", "why_tests_cant": "the table is shared by all callers and searched linearly; the error paths depend on what the system answers in the middle of the registration", "anchors": ["src/primitives/c_baseio.c: c_fnom (242-587), c_qqqfscr (668-693), c_fclos, c_waopen2, c_waclos2, find_file_entry, reset_file_entry"]}
{"id": "C89", "title": "A file is opened as its type asks", "statement": "The attributes of an open file follow the words of its type; its descriptor is for reading only exactly when the attribute says so, R/O files are open for reading only, R/W files never are, OLD files are not created; the name of the file is the one given, with the prefixes and suffixes of scratch files, archives and library files.", "quantifier": "all types (in upper and lower case, in any order), all names, all answers of the system", "why_tests_cant": "the type is a free string of thirteen keywords whose effects override each other; the outcome depends on access and open succeeding in several orders", "anchors": ["src/primitives/c_baseio.c: c_fnom (242-587), qqcopen (1851-1989)"]}
{"id": "C90", "title": "Each open file has its own slot for word addressing", "statement": "Every open word addressable file has a slot with its descriptor, used by no other open file, and a slot in use belongs to an open file; closing frees the slot and the next file starts at offset 0.", "quantifier": "all sequences of calls of c_fnom, c_waopen2, c_waclos2 and c_fclos, all descriptors given by the system", "why_tests_cant": "slots are searched by descriptor and descriptors are recycled by the system; leaks show up only after many openings", "anchors": ["src/primitives/c_baseio.c: qqcopen (1851-1989), qqcclos, c_waclos2 (869-885), c_fclos, c_fnom"]}
{"id": "C91", "title": "The part of an archive that is asked for is the one read", "statement": "Opening file@part finds the first part of this name in a CMCARC archive of any version and takes the position and length of its data, and fails when no part has the name.", "quantifier": "all well formed archives (three forms of beginning, parts with sizes of 32 and 64 bits mixed, any number, sizes and contents), all names", "why_tests_cant": "needs archives of several versions, with parts too large to be stored in a test; sizes decide between the two record forms", "anchors": ["src/primitives/c_baseio.c: filepos (1729-1846)", "src/primitives/wafile.h: 1-38"]}
{"id": "C92", "title": "Streams return what was written", "statement": "Words read from a sequential stream are the next ones of the file, words written replace them, and the number returned is the number of words moved, however the system splits the transfers.", "quantifier": "all sequences of c_sqgetw, c_sqputw, c_sqrew and c_sqeoi, all contents, all ways of the system to move fewer bytes than asked", "why_tests_cant": "disks move whole requests; pipes and network files split them at arbitrary bytes, depending on load", "anchors": ["src/primitives/c_baseio.c: c_sqrew (1413-1425), c_sqeoi (1437-1449), c_sqgetw (1462-1485), c_sqputw (1498-1520), c_sqgets (1535-1547), c_sqputs (1571-1583)"]}
{"id": "C93", "title": "A direct access unit has one pending transfer", "statement": "c_readda and c_writda send exactly the words of the blocks asked for, unless the unit has a transfer not yet ended by c_checda, in which case they refuse; transfers of other units do not matter.", "quantifier": "all sequences of calls, all units, all contents of the memory after the table", "why_tests_cant": "the table of pending units is global and its search reads one word too far, whose value depends on the link", "anchors": ["src/primitives/c_baseio.c: dastat (98), c_checda (1207-1217), c_readda (1229-1259), c_writda (1277-1306)"]}
{"id": "C94", "title": "Editing a record changes the descriptors given and no others", "statement": "After c_fst_edit_dir_plus the descriptors of the record that were given have the values given, those given as -1 or blank keep theirs, and every other record, the data and the sizes are as before, also after the file is closed and opened again.", "quantifier": "all files reached by writing, deleting and rewriting, all records, all edits", "why_tests_cant": "the descriptors of a record are in two places, and the values are packed in fields without any test of range", "anchors": ["src/fstd98/fstd98.c: c_fst_edit_dir_plus (1389-1519), c_fst_edit_dir (1523-1546)"]}
{"id": "C95", "title": "Search masks hide exactly the masked bits and characters", "statement": "After any calls of c_fstmsq the masks returned are those last set, and a search finds exactly the records that agree with its criteria on the bits of ip1, ip2, ip3 and the characters of the label not masked by the last call.", "quantifier": "all sequences of calls, all masks, all records and criteria", "why_tests_cant": "masks have 2^84 values besides the label, and are combined with the masks of each search", "anchors": ["src/fstd98/fstd98.c: c_fstmsq (2476-2550)", "src/fstd98/xdf98.c: build_fstd_prim_keys (target and mask of a search)"]}
{"id": "C96", "title": "A level queued in both codings is found in either", "statement": "After ip1_all, ip2_all, ip3_all or the _val forms, a search by the value returned finds the first record that meets the other criteria and whose ip has one of the codes of the level; the tables are empty afterwards.", "quantifier": "all files and linked files, all records, all levels and tables, all search masks", "why_tests_cant": "tables are global and consumed by the next search; levels coded with different exponents are compared by scaling mantissas; tests use one level at a time", "anchors": ["src/fstd98/fstd98.c: init_ip_vals (147-164), ip_is_equal (168-226), c_fstinfx (1662-1867), c_ip1_all to c_ip3_val (3428-3640)"]}
{"id": "C97", "title": "The header of a BURP report comes back as given", "statement": "mrbhdr on a report prepared by mrbini gives the same time, flags, name, type, place, elevation, delay, date and run; after mrbupd the values given have changed and all others have not; a report written to a file and read back, or asked for by mrfprm, has the same header.", "quantifier": "all values that fit their fields, all names, all dates", "why_tests_cant": "eighteen keys share eight words, dates are packed with their century hidden in the month; tests use one recent date", "anchors": ["src/burp98_f/mrbini.F90 (80-162), mrbupd.F90 (79-165), mrfprm.F90 (66-121)", "src/fstd98/burp98.c: write_burp_prim_keys (135-245), write_burp_info_keys (68-85), c_mrbhdr (661-735), c_mrfget (1104-1129), c_mrfput (1133-1168)"]}
{"id": "C98", "title": "A search for reports finds those that agree with what is asked", "statement": "Repeated calls of mrfloc give, in the order of the file and each once, the reports that have the name (stars match any character), type, place, date and time asked for, -1 standing for any value.", "quantifier": "all files, all reports in them, all criteria", "why_tests_cant": "criteria are compared as masked words that mix several keys; tests search files of a few reports by one key", "anchors": ["src/burp98_f/mrfloc.F90 (76-138)", "src/fstd98/burp98.c: write_burp_prim_keys (135-245)", "src/fstd98/xdf98.c: c_xdfloc (1550-1563), c_xdfloc2"]}
{"id": "C99", "title": "The size in the header of a random file tells whether it was closed properly", "statement": "At any time the file is as long as the header in memory says; after closing, c_xdfcheck accepts the file and c_wkoffit recognises it as a standard or report file; after a session cut by a crash the check accepts it exactly when it is as long as at the last close, otherwise the type is CORROMPU.", "quantifier": "all histories of appends, rewrites, deletions, checkpoints and reopenings; all crashes", "why_tests_cant": "depends on every place where the file grows; tests check one good file and one truncated by hand", "anchors": ["src/fstd98/xdf98.c: c_xdfcheck (72-115)", "src/fstd98/fstd98.c: c_fstcheck (2784)", "src/fstd98/burp98.c: c_burpcheck (274)", "src/primitives/wkoffit.c: c_wkoffit (294-457)"]}
{"id": "C100", "title": "The type of a file depends on the file alone", "statement": "The answer of c_wkoffit is a function of the bytes of the file; a Fortran unformatted file is recognised by its record marks unless a signature is found.", "quantifier": "all files and all contents of uninitialised memory", "why_tests_cant": "buffers are not initialised, so the answer of a test run may be luck; tests use long files of the usual kinds", "anchors": ["src/primitives/wkoffit.c: isftnbin (231-246), c_wkoffit (294-457)", "src/primitives/fread32.c: fread32"]}
{"id": "C101", "title": "A sequential file gives back its records and marks in order", "statement": "Whatever list of records and end-of-file marks is written to a new sequential file, any list of searches gives, one after the other, the next record that agrees with the masked keys, or the level of the first end met before it; with the words of the record as written. Both in the session that wrote, after a rewind, and after closing and opening in any mode, once something has been written.", "quantifier": "all lists of calls, all record contents, all queries, all modes", "why_tests_cant": "the chain of postfixes and marks is a protocol between writer and reader; tests write a few records of one size", "anchors": ["src/fstd98/xdf98.c: c_xdfput (2146-2380), next_match (3264-3389), c_xdfloc2 (1575-1700), c_xdfget2 (1102-1179), c_xdfopn (1798-1913), c_xdfcls (803-893)", "src/fstd98/fstd98.c: c_fstweo (3340), c_fsteof (1584), c_fstrwd (2971)"]}
{"id": "C102", "title": "Skips, rewinds and searches of a sequential file move by whole records", "statement": "After any sequence of skips, rewinds and searches the position is that given by counting records in the history: forward to the next end at most, back to the start of the logical file at most.", "quantifier": "all files, all sequences of moves, all counts positive and negative", "why_tests_cant": "positions depend on all previous moves; tests skip one record forward", "anchors": ["src/fstd98/fstd98.c: c_fstskp (3008-3112), c_fstrwd (2971-3004)", "src/fstd98/xdf98.c: next_match (3264-3389)"]}
{"id": "C103", "title": "What is appended to a sequential file follows what it held", "statement": "A file opened for writing and positioned by c_fstapp keeps everything it held, and what is written next follows it.", "quantifier": "all files, all lists of calls before and after", "why_tests_cant": "tests append to files without marks", "anchors": ["src/fstd98/fstd98.c: c_fstapp (596-668)", "src/fstd98/xdf98.c: c_xdfput (2146-2380)"]}
{"id": "C104", "title": "Deleting a record of a sequential file leaves the others", "statement": "After c_xdfdel the other records of the file are found as before.", "quantifier": "all files, all records, all queries", "why_tests_cant": "the effect of the mark on later searches is far from the deletion; tests delete from random files", "anchors": ["src/fstd98/xdf98.c: c_xdfdel (945-1043), next_match (3264-3275)"]}
{"id": "C105", "title": "Rotated coordinates and true coordinates are inverse of each other", "statement": "For every rotated grid whose two defining points are neither equal nor opposite, going to rotated coordinates and back, or the other way, gives the same point; angular distances are preserved; the first defining point is at longitude 180 of the rotated equator and the second one on the rotated equator.", "quantifier": "all grids, all points of the sphere, exact arithmetic", "why_tests_cant": "tests compare a few points of one grid with stored values", "anchors": ["src/interp/ez_crot.inc: ez_crot (44-97)", "src/interp/ez_lac.inc: ez_lac (31-47)", "src/interp/ez_cal.inc: ez_cal (22-47)", "src/interp/ez_gfxyfll.c: c_ezgfxyfll (38-57)", "src/interp/ez_gfllfxy.c: c_ezgfllfxy (40-58)", "src/base/mxm.F90: mxm (23-40)"]}
{"id": "C106", "title": "Polar stereographic coordinates and latitude-longitude are inverse of each other", "statement": "For every polar stereographic grid of positive spacing, north or south, grid coordinates to latitude-longitude and back gives the same point of the plane; latitude-longitude to grid coordinates and back gives the latitude and, away from the pole, the longitude up to 360 degrees; for an orientation in (-180, 180] the longitude is in [0, 360).", "quantifier": "all grids, all points, exact arithmetic", "why_tests_cant": "tests compare a few points; quadrants, axes and the southern hemisphere are separate branches", "anchors": ["src/interp/ez_vxyfll.inc: ez_vxyfll (22-98)", "src/interp/ez_vllfxy.inc: ez_vllfxy (22-103)"]}
{"id": "C107", "title": "Winds converted to grid components and back are unchanged", "statement": "On every type of grid, speed and direction to components and back gives the speed, and the direction up to 360 degrees; components to speed and direction and back gives the components; rotation preserves the speed; the coordinates given by the caller are not modified.", "quantifier": "all grid types, all winds, all points, exact arithmetic", "why_tests_cant": "the conventions differ by grid type and quadrant; the error on grids of type E shows only through uninitialised memory", "anchors": ["src/interp/ez_gdwfllw.inc: ez_gdwfllw (23-137)", "src/interp/ez_llwfgdw.inc: ez_llwfgdw (22-170)", "src/interp/ez_uvacart.inc: ez_uvacart (24-62)", "src/interp/ez_cartauv.inc: ez_cartauv (23-62)", "src/interp/ez_gfwfllw.c: c_ezgfwfllw (39-76)", "src/interp/ez_llwfgfw.c: c_ezllwfgfw (38-73)", "src/interp/gduvfwd.c: c_gduvfwd_orig (29-96)", "src/interp/gdwdfuv.c: c_gdwdfuv_orig (29-100)"]}
{"id": "C108", "title": "Grid indices to latitude-longitude and back give the same indices", "statement": "On latitude-longitude grids, Gaussian grids and grids with axes in latitude-longitude, gdxyfll of gdllfxy gives the indices back: exactly inside the domain, and for the global types up to whole turns of columns outside; and gdllfxy of gdxyfll gives the latitude and longitude back.", "quantifier": "all grids of types A, B, G, L and Z on L, all positions, exact arithmetic", "why_tests_cant": "tests compare a few points of one grid; the conventions of hemisphere, order of rows and range of longitudes are separate branches in each direction", "anchors": ["src/interp/gdllfxy.c: c_gdllfxy_new (93-250)", "src/interp/gdxyfll.c: c_gdxyfll_new (29-104)", "src/interp/ez_ll2rgd.inc: ez_ll2rgd (62-149)", "src/interp/ez_ll2igd.inc: ez_ll2igd (22-86)", "src/interp/ez_llll2gd.inc: ez_llll2gd (22-56)", "src/interp/ez_defxg.c: c_ezdefxg (27-148)", "src/interp/ez_xpncof.c: ez_xpncof (69-221)"]}
{"id": "C109", "title": "gdll and gdllfxy give the same coordinates to the points of a grid", "statement": "For every point (i, j) of a grid, the latitude and longitude gdll returns are those gdllfxy returns for the indices (i, j).", "quantifier": "all grids of types A, B, G, L and Z on L, all points of the grid, exact arithmetic", "why_tests_cant": "tests compare each function with its own stored output", "anchors": ["src/interp/ez_calclatlon.c: ez_calclatlon (30-270)", "src/interp/ez_llfgr.c: c_llfgr (26-35)", "src/base/grll.f: grll (56-64)", "src/interp/gdllfxy.c: c_gdllfxy_new (93-250)"]}
{"id": "C110", "title": "Interpolating from one grid does not change positions in another", "statement": "The position computed for a point of the target grid in a source grid does not depend on which other source grids were interpolated from before, and the coordinates kept with the target grid do not change.", "quantifier": "all sequences of source grids, all target points, exact arithmetic", "why_tests_cant": "the change of the stored longitudes shows only in a later interpolation from another source", "anchors": ["src/interp/ez_calcxy.c: ez_calcxy (65-98)", "src/interp/ez_ll2rgd.inc: ez_ll2rgd (62-149)", "src/interp/ez_ll2igd.inc: ez_ll2igd (22-86)", "src/interp/ez_llll2gd.inc: ez_llll2gd (31-46)"]}
{"id": "C111", "title": "Hemispheric fields are completed with the rows of the other hemisphere", "statement": "Before an interpolation from a hemispheric A, B or G grid, ez_xpnsrcgd fills every row of the expanded grid: the rows given stay as they are, and each added row is the given row at the opposite latitude, with its sign changed when the field is antisymmetric. Nothing outside the expanded rows is written.", "quantifier": "all grids of types A, B and G over one hemisphere, all fields, both symmetries", "why_tests_cant": "tests interpolate from one hemispheric file; an off by one in the mirrored rows of one type shows only near the equator", "anchors": ["src/interp/ez_xpnsrcgd.c: ez_xpnsrcgd (36-49)", "src/interp/ez_xpngdag2.inc: ez_xpngdag2 (36-68)", "src/interp/ez_xpngdb2.inc: ez_xpngdb2 (35-67)", "src/interp/ez_xpncof.c: ez_xpncof (108-150)"]}
{"id": "C112", "title": "Points outside the source grid get exactly the extrapolation asked for", "statement": "On a source grid that does not cover the globe, the points half a cell or more outside get the value of the extrapolation option (interpolation of the given degree, the maximum plus or the minimum minus a twentieth of the range, a given value, 0 for winds), all other points are left as they are, and with the option abort the call fails exactly when some point is outside, having changed nothing.", "quantifier": "all source grids, fields, options and lists of points, exact arithmetic", "why_tests_cant": "tests use targets inside the source or one option; the mix of inside and outside points goes through index lists", "anchors": ["src/interp/ez_defzones.c: ez_defzones (27-113)", "src/interp/ez_defzone_dehors.c: ez_defzone_dehors (62-90)", "src/interp/ez_corrval.c: ez_corrval (29-151)", "src/interp/ez_aminmax.inc: ez_aminmax (21-28)"]}
{"id": "C113", "title": "Near the poles an interpolated field goes continuously to the value of the pole", "statement": "On a source grid that covers the globe, points at a pole get the mean of the nearest row, points between the pole and the nearest row get values between the two, points on rows of the grid get what plain interpolation gives, and all other points are not changed.", "quantifier": "all global source grids, fields and points, degrees 0, 1 and 3, exact arithmetic", "why_tests_cant": "errors near the poles are small parts of a field and differ between grid types and degrees", "anchors": ["src/interp/ez_corrval.c: ez_corrval (117-145)", "src/interp/ez_corrval_aunord.c: ez_corrval_aunord (42-107)", "src/interp/ez_corrval_ausud.c: ez_corrval_ausud (53-126)", "src/interp/ez_calcpoleval.inc: ez_calcpoleval (30-45)", "src/interp/ez_rgdint_3_wnnc.inc: ez_rgdint_3_wnnc (70-104)", "src/interp/ez_irgdint_3_wnnc.inc: ez_irgdint_3_wnnc (92-243)", "src/interp/ez_defzone_polenord.c: ez_defzone_polenord (41-83)"]}
{"id": "C114", "title": "Interpolation options set by name are read back", "statement": "ezsetopt accepts exactly the documented names and values, in English or French and in any mixture of upper and lower case; ezgetopt with the same name then gives that value, the other options keep theirs, and a refused call changes nothing. The same holds for ezsetval, ezsetival, ezgetval and ezgetival.", "quantifier": "all names and values of fewer than 32 characters, all states of the options", "why_tests_cant": "tests set two or three options; the four tables of names (set and get, English and French) are written out separately", "anchors": ["src/interp/ezsetopt.c: c_ezsetopt (59-215)", "src/interp/ezgetopt.c: c_ezgetopt (53-234)", "src/interp/ezsetval.c: c_ezsetfval (86-114)", "src/interp/ezsetval.c: c_ezsetival (122-148)", "src/interp/ezgetval.c: c_ezgetval (55-87)", "src/interp/ezgetval.c: c_ezgetival (89-117)"]}
{"id": "C115", "title": "A point of a yin-yang pair gets a position within the grid it is taken from", "statement": "The mask of a grid of a pair has exactly the columns and rows within its limits. On a pair, gdxyfll gives a point that lies within at least one of the two grids a position within one of them, yin first, with the number of rows added for yang; gdllfxy undoes it, and gdllsval gives the value of that grid at that position.", "quantifier": "all pairs of grids with any position functions, all points", "why_tests_cant": "the tests interpolate whole fields between two pairs; points just outside a grid whose mask starts in its first column are not sampled", "anchors": ["src/interp/ezgdef_yymask.c: c_ezgdef_yymask (27-69)", "src/interp/gdxyfll.c: c_gdxyfll (162-212)", "src/interp/gdllfxy.c: c_gdllfxy (31-84)", "src/interp/gdxysval.c: c_gdxysval (50-104)", "src/interp/gdllsval.c: c_gdllsval (35-55)"]}
{"id": "C116", "title": "Making the mask of a pair leaves the interpolation options as they were", "statement": "c_ezyymint sets nearest neighbour and the extrapolation value 1 to make the mask and then puts the options of the caller back.", "quantifier": "all states of the options that calls of ezsetopt can reach, all extrapolation values", "why_tests_cant": "the damage shows in the next interpolation, of another field, with options few tests use", "anchors": ["src/interp/ezyymint.c: c_ezyymint (27-71)", "src/interp/ezgetopt.c: c_ezgetopt (53-234)", "src/interp/ezsetopt.c: c_ezsetopt (59-215)"]}
{"id": "C117", "title": "Interpolation from a pair takes each point from the grid its mask names", "statement": "The mask of a target point is 1 exactly when the point is half a cell or more outside the mask grid of yin. Interpolation from a pair gives each point the value of yang where the mask is 1 and of yin elsewhere, in the order of the target; to a grid of the pair itself it copies that half; from or to a pair the halves are independent; with use_1subgrid only the chosen grid is used.", "quantifier": "all masks, points, fields and numbers of grids", "why_tests_cant": "packing and merging by two counters goes wrong only for particular interleavings of the mask", "anchors": ["src/interp/ezyysint.c: c_ezyysint (26-242)", "src/interp/ezyy_calcxy.c: c_ezyy_calcxy (28-179)", "src/interp/ezyymint.c: c_ezyymint (73-101)", "src/interp/ezsint.c: c_ezsint (38-73)", "src/interp/ezsint.c: c_ezsint_orig (75-135)"]}
{"id": "C118", "title": "Arguments given by keys set exactly the keys they name", "statement": "c_ccard on a command line of positional arguments, keys with values and positional arguments after -- gives each value to the key it belongs to, whether values are attached by = or follow, separated by blanks or colons; a key without value takes its def, all others keep their val, and values are converted to upper or lower case as the name of the key asks. Whatever the command line, keys it does not name keep their val.", "quantifier": "all tables of keys, all command lines whose values fit in the keys of the same name; for keys not named, all command lines", "why_tests_cant": "the forms of the values, repeated keys and positional arguments combine freely; the tests try one key with one value in two forms", "anchors": ["src/primitives/c_ccard.c: c_ccard (49-240)", "src/primitives/c_ccard.c: c_jfc_cherche_la_clef (247-268)", "src/primitives/c_ccard.c: c_jfc_les_valeurs (275-335)", "src/primitives/c_ccard.c: c_jfc_majmin (363-388)", "src/primitives/c_ccard.c: c_jfc_positionel (462-511)"]}
{"id": "C119", "title": "IBM numbers become the same IEEE numbers", "statement": "c_ibm32_ieee converts a number in IBM 32-bit format without error when it is in the range of normal IEEE numbers, gives zero for smaller ones and stops the program for larger ones; zero becomes zero.", "quantifier": "all 2^32 words", "why_tests_cant": "2^32 words; no test calls the routine", "anchors": ["src/primitives/ibm32_ieee.c: c_ibm32_ieee (27-60)"]}
{"id": "C120", "title": "Arguments given by keys set exactly the keys they name, in Fortran", "statement": "ccard on a command line of positional arguments and keys with values gives each value to the key it belongs to, whether values are attached by =, follow, or start with = in an argument of their own, separated by blanks or colons (or by = for keys that take colons); a key without value takes its def, later keys win, all others keep their val, values are converted and cut as the key asks, and the number of positional arguments is returned.", "quantifier": "all tables of at most 1024 keys, all command lines whose values fit in the keys of the same name", "why_tests_cant": "the forms of the values, repeated keys and positional arguments combine freely; no test calls ccard with values", "anchors": ["src/primitives/ccard.F90: ccard (62-237)", "src/primitives/ccard.F90: qqqobm (249-355)"]}
{"id": "C121", "title": "Mask zones count the points around that are present", "statement": "For a point inside the input grid ezget_mask_zones gives the number of points of the cell around it that are not missing, and 7 outside the grid.", "quantifier": "all masks, all grid sizes, all positions", "why_tests_cant": "every mask of four corners at every kind of position, including edges; the tests do not call it", "anchors": ["src/interp/ezget_mask_zones.inc: qqq_ezget_mask_zones (1-59)", "src/interp/ez_mask.c: c_ezget_mask_zones (231-264)"]}
{"id": "C122", "title": "The mask of an interpolated field", "statement": "ezsint_mask masks points outside the input grid; otherwise the mask is that of the nearest point, and with linear interpolation of scattered data a point is kept only if all points around it are present.", "quantifier": "all masks, all positions", "why_tests_cant": "mask and position combine freely; the tests do not call it", "anchors": ["src/interp/ezget_mask_zones.inc: qqq_ezsint_mask (61-105)", "src/interp/ez_mask.c: c_ezsint_mask (184-223)"]}
{"id": "C123", "title": "Filling masked points leaves the others alone", "statement": "lorenzo_mask_fill never changes a point that is not masked and gives masked points values within the range of the field: its least value, a prediction that recovers sums of a function of the column and one of the row, or the value to the left.", "quantifier": "all fields, masks and sizes, the three methods", "why_tests_cant": "any pattern of masked points; the tests do not call it", "anchors": ["src/interp/lorenzo_mask_fill.inc: lorenzo_mask_fill (1-82)"]}
{"id": "C124", "title": "Weights of scattered points belong to the nearest ones", "statement": "ez_calcxy_y gives each output point weights of sum 1, inversely proportional to the square of the distance, for the nearest input points within the threshold, and masks points without any.", "quantifier": "all sets of points, all numbers of weights", "why_tests_cant": "the list of nearest points depends on the order of the scan and on ties", "anchors": ["src/interp/ez_calcxy_y.inc: ez_calcxy_y (1-94)", "src/interp/ez_calcxy_y_m.inc: ez_calcxy_y_m (1-104)"]}
{"id": "C125", "title": "Scattered data are interpolated with the weights of the point", "statement": "ez_applywgts gives each output point the weighted sum of the values of its points, within the range of the field.", "quantifier": "all grids, weights and fields", "why_tests_cant": "errors in the index of the weights show only in one column", "anchors": ["src/interp/ez_applywgts.inc: ez_applywgts (1-48)"]}
{"id": "C126", "title": "Points in cells and their place in them", "statement": "pt_in_triangle and pt_in_quad tell exactly whether a point is in a triangle or convex cell, and ez_uvfllc2d inverts the projective map of the unit square onto the cell.", "quantifier": "all cells that are not degenerate, all points", "why_tests_cant": "continuous coordinates", "anchors": ["src/interp/pt_in_quad.inc: pt_in_quad (1-16)", "src/interp/pt_in_quad.inc: pt_in_triangle (18-47)", "src/interp/ez_uvfllc2d.inc: ez_uvfllc2d (68-118)"]}
{"id": "C127", "title": "Averages over cells of the output grid", "statement": "ez_avg and ez_avg_sph give each point of the output the average of the input over the cell around it, the area being that of the parts of the input tiles in the cell; the average is within the range of the field and keeps constants.", "quantifier": "all fields, grids, positions and extensions", "why_tests_cant": "cells cut tiles anywhere; the tests do not call it", "anchors": ["src/interp/ez_avg.inc: ez_avg (1-321)", "src/interp/ez_avg_sph.inc: ez_avg_sph (1-232)"]}
{"id": "C128", "title": "Expressions of directives", "statement": "QLXXPR evaluates an expression between parentheses to the value that the priorities of its operators give it: ** before * and / before + and - before comparisons before AND before OR and XOR, parentheses first.", "quantifier": "all expressions, of any depth that fits the tables", "why_tests_cant": "the tests contain no expressions", "anchors": ["src/readlx/readlx.F90: QLXOPR (1163-1392)", "src/primitives/readlx.F90: QLXPRI (1420-1455)", "src/primitives/readlx.F90: QLXRPN (1477-1543)", "src/primitives/readlx.F90: QLXXPR (1778-1910)"]}
{"id": "C129", "title": "Reading the tokens of directives", "statement": "QLXTOK and QLXNUM split a text into the numbers and operators that were written, whatever the blanks between them, so that an expression given as text has its value.", "quantifier": "all texts of numbers and operators with any blanks", "why_tests_cant": "the tests contain no expressions", "anchors": ["src/readlx/readlx.F90: QLXTOK (1575-1738)", "src/primitives/readlx.F90: QLXNUM (1015-1126)"]}
{"id": "C130", "title": "Tri-diagonal systems", "statement": "ROSSR3 returns the solution of the tri-diagonal system given, also when the solution is put in the place of the super-diagonal and the work vector is one of the other arrays; a system whose diagonal dominates is solved.", "quantifier": "all systems of any size, all allowed ways of sharing arrays", "why_tests_cant": "the tests do not call it; sharing of arrays depends on the order of reads and writes", "anchors": ["src/base/rossr3.f: ROSSR3 (22-117)"]}
{"id": "C131", "title": "Cubic splines through points", "statement": "INT1D1 evaluates a piecewise cubic that goes through all points, has continuous first and second derivatives and satisfies the conditions at the ends.", "quantifier": "all points, spacings, end conditions and places", "why_tests_cant": "the tests do not call it; the derivatives are continuous only if every line of the system is right", "anchors": ["src/base/int1d1.f: INT1D1 (22-128)", "src/base/spd.f: SPD (22-102)", "src/base/d1int1.f: D1INT1 (22-98)"]}
{"id": "C132", "title": "Slopes at the ends of splines", "statement": "FD1, FDM, D1 and DN are accurate to the fourth order: they give the derivative of a cubic exactly, so that INT1D1 with them reproduces cubics.", "quantifier": "all cubics, spacings and places", "why_tests_cant": "the order of accuracy cannot be seen from a few values", "anchors": ["src/base/fd1.f: FD1 (22-77)", "src/base/fdm.f: FDM (22-78)", "src/base/d1.f: D1, DN (22-102)"]}
{"id": "C133", "title": "Bicubic interpolation of two-dimensional splines", "statement": "D1INT2 and D1INTR return the value of the bicubic that the values and derivatives at the corners of a square determine.", "quantifier": "all bicubics, grids and places", "why_tests_cant": "sixteen terms with their weights; the tests do not call them", "anchors": ["src/base/d1int2.f: D1INT2 (22-152)", "src/base/d1intr.f: D1INTR (22-138)"]}
{"id": "C134", "title": "Locks between threads", "statement": "set_user_lock lets at most one thread hold the lock, also when calls are nested; only the thread that holds it can give it back.", "quantifier": "all numbers of threads, all orders of their steps, all depths", "why_tests_cant": "a race shows only with an unlucky timing; the tests have one thread", "anchors": ["src/base/set_user_lock.F90: set_user_lock (2-61)", "src/base/moduledate.f90: date_thread_lock (27-33)"]}
{"id": "C135", "title": "Random numbers", "statement": "nr_rand_i returns numbers from 0 to 999999999; each is the difference of the numbers 55 and 24 places before modulo 1000000000; a seed determines all that follow.", "quantifier": "all seeds, all sequences of calls", "why_tests_cant": "whether a number leaves the range depends on the seed, and a sequence never ends", "anchors": ["src/base/nr_rand.f: nr_rand_seed, nr_rand_i (20-76)"]}
{"id": "C136", "title": "Mean and standard deviation of an error", "statement": "MWERMS returns the weighted mean of the error over the window and the root of the weighted mean square of its deviation from this mean, or 99999 if there is none.", "quantifier": "all fields, weights and windows", "why_tests_cant": "that the variance is that of the deviations is an identity of sums of any length; the tests do not call it", "anchors": ["src/base/mwerms.f: MWERMS (20-107)"]}
{"id": "C137", "title": "Correlation of changes", "statement": "CORCOF returns the correlation of the actual and the predicted change of a field over the window; it is between -1 and 1.", "quantifier": "all fields, weights that are not negative, windows", "why_tests_cant": "the bound is the inequality of Cauchy and Schwarz; the tests do not call it", "anchors": ["src/base/corcof.f: CORCOF (20-122)"]}
{"id": "C138", "title": "S1 score", "statement": "S1SCOR returns 100 times the ratio of the error of the gradients and the larger of the gradients, which is from 0 to 200.", "quantifier": "all fields, windows and both intervals", "why_tests_cant": "sums over windows of any size; the tests do not call it", "anchors": ["src/base/s1scor.f: S1SCOR (20-106)"]}
{"id": "C139", "title": "Changes to linked files", "statement": "Records added, deleted and rewritten through handles are changed in the file they belong to: the counts in its header stay those of its records, and closing it saves every change.", "quantifier": "all sequences of additions, deletions and rewritings on any number of files, linked or not", "why_tests_cant": "the tests do not change records of linked files; the loss shows when the file is opened again", "anchors": ["src/fstd98/xdf98.c: c_xdfdel (946-1042), c_xdfput (2145-2376), add_dir_page (118-185), c_xdfcls (803-892), c_xdfget2 (1047-1200)"]}
{"id": "C140", "title": "Bilinear interpolation and sections", "statement": "BILIN is the bilinear interpolation of the field at any point inside, and COUPE takes it at equal distances between two points; outside the value is 0 and OK is false.", "quantifier": "all fields, points and numbers of points", "why_tests_cant": "the points are real numbers; the tests do not call it", "anchors": ["src/base/bilin.f: BILIN (22-78)", "src/base/coupe.f: COUPE (22-74)"]}
{"id": "C141", "title": "Lagrange interpolation", "statement": "POLAGR is the value at any point of the polynomial of least degree through the given points.", "quantifier": "all numbers of points, all values", "why_tests_cant": "an identity between polynomials of any degree", "anchors": ["src/base/polagr.f: POLAGR (22-65)"]}
{"id": "C142", "title": "Rearranging and multiplying arrays", "statement": "PERMUT reverses the order of rows, mxma is the product of two matrices whatever the distances between their elements, move3216 and move832 exchange halves and bytes of words.", "quantifier": "all sizes, distances and contents", "why_tests_cant": "distances can be chosen so that elements meet; sizes are not bounded", "anchors": ["src/base/permut.f: PERMUT (22-69)", "src/base/mxma.F: mxma, mxma8 (21-87)", "src/base/movlev.F90: move3216, move832 (27-81)"]}
{"id": "C143", "title": "Grids by GRIB code", "statement": "igagds95 and igaxg95 return the record of the table that has the code and the centre asked for (any centre if 0), and fail if there is none.", "quantifier": "all tables, codes and centres", "why_tests_cant": "the table used in tests has each code once", "anchors": ["src/base/igaxg95.F: igagds95, igaxg95, qgblukig, qqqgbld (20-286)"]}
{"id": "C144", "title": "Inverting a matrix", "statement": "EZ_MTXINV8 returns the inverse of its matrix, or stops if and only if the matrix has none.", "quantifier": "all sizes and all matrices", "why_tests_cant": "the pivots and interchanges differ for each matrix; sizes are not bounded", "anchors": ["src/interp/ez_mtxinv8.inc: EZ_MTXINV8 (22-153)"]}
{"id": "C145", "title": "Memory blocks with guards", "statement": "A program which writes only into the areas given by hpalloc or ca_alloc is never stopped by dmms; each block can be freed; and hpcheck reports each block whose guards were overwritten.", "quantifier": "all sequences of allocations, releases and writes, wherever malloc puts the blocks", "why_tests_cant": "the failures depend on the addresses malloc returns and on blocks allocated before", "anchors": ["src/primitives/dmms.c: bloc_alloc (104-212), bloc_check (216-245), bloc_dealloc (249-284), mem_check (288-304), hpalloc (336-354), hpdeallc (358-368), ca_alloc (372-409), ca_deallc (412-416), bkcheck (476-478), hpcheck (481-487)"]}
{"id": "C146", "title": "Variables of an application", "statement": "A variable of the table has the value it was set to last, without trailing blanks, and reading it writes into the caller's variable only.", "quantifier": "all sequences of settings, all names and values, all contents of fresh memory", "why_tests_cant": "names which begin alike and the bytes left by malloc are not varied by tests", "anchors": ["src/primitives/appl_var.c: set_appl_var (43-77), get_appl_var (80-103), c_get_appl_var (106-114)"]}
{"id": "C147", "title": "Bits for a BURP block", "statement": "QRBNBDT returns a number of bits and a type in which each value can be coded and told from a missing one, the least number not below the one asked for, or an error.", "quantifier": "all values, numbers of bits and types", "why_tests_cant": "the table has 32 limits, each with values just below and above; 32-bit extremes are not tested", "anchors": ["src/burp98_f/qrbnbdt.F90: QRBNBDT (24-167)"]}
{"id": "C148", "title": "Options in environment variables", "statement": "c_env_var_cracker calls the user function once for each value of each variable of an option, with the name in upper case and the place of the value, and leaves the environment as it is.", "quantifier": "all options", "why_tests_cant": "an option is any string; the tests use one", "anchors": ["src/primitives/c_env_var_cracker.c: c_env_var_cracker (192-337), check_start_end_char (95-189), remove_quotes (85-91), trimleft, trimright (55-82)"]}
{"id": "C149", "title": "Strings of Fortran and C", "statement": "A string goes from C to Fortran and back unchanged; the length of a Fortran string is the one without the blanks at its end; change of case touches letters only; characters put into the bytes of words come back.", "quantifier": "all strings", "why_tests_cant": "strings are of any length and content; the tests use a few names", "anchors": ["src/fstd98/FC_string.c: cstring_to_fstring, fstring_to_cstring, fill_string_array (36-88)", "src/base/ftnStrLen.c: ftnStrLen (5-19)", "src/primitives/up2low.f: UP2LOW, LOW2UP (22-61)", "src/primitives/getenvc.c: getenvc2 (31-74)", "src/fstd98/strgr4a.c, src/fstd98/r4astrg.c"]}
{"id": "C150", "title": "Squares of fields, map scale and Coriolis parameter", "statement": "SQADSQ gives the scaled sum of squares within the borders told by the digits of NB and keeps all else, also where the arrays coincide; MSCALE and CORIOL give the map scale and the Coriolis parameter at the latitude of each point.", "quantifier": "all fields, borders and grids", "why_tests_cant": "the borders have ten thousand codes and the fields any values; the tests do not call these routines", "anchors": ["src/base/sqadsq.f: SQADSQ (24-103)", "src/base/mscale.f: MSCALE (22-84)", "src/base/coriol.f: CORIOL (61-81)"]}
{"id": "C151", "title": "The sixteen points around a place on a sphere", "statement": "IDXES gives columns and rows of the field: the column half a circle away and the row reflected where a pole lies between, the row of the same latitude with a minus sign on the other hemisphere.", "quantifier": "all places and grids", "why_tests_cant": "the cases are those of three kinds of field, two poles, the equator and Greenwich; no test calls it", "anchors": ["src/base/idxes.F: IDXES (26-138)"]}
{"id": "C152", "title": "Files of big-endian numbers", "statement": "fwrite16, fwrite32 and fwrite64 put numbers with the high byte first and leave the buffer as it was; fread16, fread32 and fread64 read them back.", "quantifier": "all buffers and sizes", "why_tests_cant": "the buffers have any length and content, the count of words overflows only for files no test writes", "anchors": ["src/primitives/fread32.c: fread16, fread32, fread64, fwrite16, fwrite32, fwrite64 (35-293)"]}
{"id": "C153", "title": "Copies of strings with filling", "statement": "ftn2c_string_copy copies the trimmed string, fills the destination or ends it with NUL and refuses what does not fit; arrays of strings go to Fortran and back.", "quantifier": "all strings and lengths", "why_tests_cant": "strings and destinations have any lengths; no test reaches the edges", "anchors": ["src/primitives/ftn2c_helper_c.c: ftn2c_string_copy (24-60), ftn2c_cstra_fstra, ftn2c_fstra_cstra (64-96)"]}
{"id": "C154", "title": "A file in an array", "statement": "A file read by array_from_file is written again as it was by array_to_file.", "quantifier": "all files and arrays", "why_tests_cant": "files have any length and content; there is no test", "anchors": ["src/primitives/array_file.c: array_from_file (33-54), array_to_file (72-94)"]}
{"id": "C155", "title": "Keys of 84 bits", "statement": "Three numbers of 28 bits and four of 21 bits made from one another are the same 84 bits, in both directions; keys made at different times or from different headers differ.", "quantifier": "all numbers, headers and times", "why_tests_cant": "there are 2^84 keys; there is no test", "anchors": ["src/fstd98/c_fstgrib_helper.c: c_def_84bitkey, f_def_84bitkey, c_igaip84, c_ipaig84 (24-180)"]}
{"id": "C156", "title": "Names of output files", "statement": "A name given by prog_filename can be read back: prefix, date, hour, minutes and seconds, processor, number and unit; it is given exactly for arguments in their ranges.", "quantifier": "all arguments", "why_tests_cant": "the arguments are eight integers and two strings; the test calls it with a few", "anchors": ["src/primitives/prog_filename.c: prog_filename (89-190)"]}
{"id": "C157", "title": "The table of common constants", "statement": "Calls which ask for, add and change constants in any order do what a map from names of 8 characters does.", "quantifier": "all tables, files and sequences of calls", "why_tests_cant": "sequences have any length; there is no test", "anchors": ["src/primitives/constnt.F90: constnt_x (50-257)"]}
{"id": "C158", "title": "Spectral transforms", "statement": "The dimensions are the numbers of symmetric and antisymmetric places; the separation, the transform to Fourier coefficients and back do the sums they stand for, and with orthonormal Legendre values coefficients come back.", "quantifier": "all truncations, coefficients and latitudes", "why_tests_cant": "arrays of any size; there is no test", "anchors": ["src/spectral/dimcal.F", "src/spectral/alpas2.F", "src/spectral/spaf2.F", "src/spectral/fasp2.F"]}
{"id": "C159", "title": "Associated Legendre functions", "statement": "The values follow the recurrence of the normalized functions row by row and what ALPDR2 gives is (1-x^2) times their derivative.", "quantifier": "all truncations and sines of latitude", "why_tests_cant": "a statement on the reals for rows of any length; there is no test", "anchors": ["src/spectral/epsil2.F", "src/spectral/alpnm2.F", "src/spectral/alpdr2.F"]}
{"id": "C160", "title": "Distances on the sphere", "statement": "The distance of two points is the earth radius times the angle between them and is a metric; areas are not negative and are those of spherical triangles.", "quantifier": "all latitudes and longitudes", "why_tests_cant": "a statement on the reals; there is no test", "anchors": ["src/interp/ez_calcdist.c: c_ez_calcdist, c_ez_calcdist2, c_ez_calcarea, c_ez_calcarea2"]}
{"id": "C161", "title": "Parameters of all blocks of a report", "statement": "MRBPRML gives, block by block from the one after inbkno, the parameters MRBPRM gives, and after any history of additions and deletions those of the blocks in the report.", "quantifier": "all reports, histories and numbers of columns", "why_tests_cant": "histories have any length; the test asks once", "anchors": ["src/burp98_f/mrbprml.F90: mrbprml (22-121)"]}
{"id": "C162", "title": "East-west derivative of Fourier coefficients", "statement": "The coefficients stored by EWFDR2 are those of q times the derivative in longitude plus or minus the second field, in place too; no other cell changes.", "quantifier": "all coefficients, sizes, factors and signs, and arrays which are the same or apart", "why_tests_cant": "a statement on the reals for arrays of any size; there is no test", "anchors": ["src/spectral/ewfdr2.F: EWFDR2 (20-66)"]}
{"id": "C163", "title": "Extrapolation codes", "statement": "With the code of the nearest neighbour a point outside the grid gets the value of the nearest place of the grid and other points keep theirs; the other codes give the extreme values with a margin or the given value.", "quantifier": "all grids, points and codes", "why_tests_cant": "fields and points are arbitrary; the routine is not tested", "anchors": ["src/interp/ez_xtrap.inc: ez_xtrap (20-87)"]}
{"id": "C164", "title": "Names as words and as characters", "statement": "Names, types, grid types and labels turned into Hollerith words and back are the same, blank ones too.", "quantifier": "all strings of the documented lengths", "why_tests_cant": "there are 2^200 values; there is no test", "anchors": ["src/fstd98/fstcvt2.f: Fstcvt2 (23-130)"]}
{"id": "C165", "title": "Reading of the table of BUFR elements", "statement": "All lines which are neither comments nor without a scale are in the table in their order; an element is repeated exactly if one of its lines is marked.", "quantifier": "all files and sizes of the table", "why_tests_cant": "files have any length; the test reads one", "anchors": ["src/burp98_f/qrbsct.F90: QRBSCT (23-157)", "src/burp98_f/mrbrpt.F90: MRBRPT (51-57)"]}
{"id": "C166", "title": "Wind at a pole", "statement": "Speed and direction at a pole are those of the vector to which the means over the two nearest circles extrapolate, with a direction in [0, 360).", "quantifier": "all fields, sizes and kinds of grid", "why_tests_cant": "a statement on the reals for rows of any length; there is no test", "anchors": ["src/base/npspin.F: NPSPIN (25-115)", "src/base/vglo.F: VGLO (108-122)"]}
{"id": "C167", "title": "Legendre polynomials by Belousov's algorithm", "statement": "The value is the Legendre polynomial of the wave number, normalized to norm 1 on [-1, 1].", "quantifier": "all wave numbers and all cosines", "why_tests_cant": "a statement on the reals for all degrees; there is no test", "anchors": ["src/spectral/ordleg8.F: ORDLEG8 (25-100)"]}
{"id": "C168", "title": "Gaussian latitudes", "statement": "Each pass of the search is a step of Newton's method for the normalized Legendre polynomial, with its exact derivative; at a root the weight is 2/((1-x*x)*P'(x)**2); the first values decrease from 1 to 0; the other tables are the functions of the colatitude they are named after.", "quantifier": "all numbers of latitudes, all roots, all executions of the loop", "why_tests_cant": "a statement on the reals for all degrees; there is no test", "anchors": ["src/spectral/gauss8.F: GAUSS8 (20-126)", "src/spectral/ordleg8.F: ORDLEG8 (25-100)"]}
{"id": "C169", "title": "Hybrid levels and pressure", "statement": "The level 1 is the surface and the level 0 the top for every surface pressure; pressure increases with the level when rcoef*(pref-ps) < pref-ptop; hybrid levels of coefficient 1 are eta levels, these with a top of 0 are sigma levels; the reference values are read back as coded; hyb2pres gives the pressure of the coordinate found in the file.", "quantifier": "all levels, surface pressures, reference values and files", "why_tests_cant": "a statement on the reals for all values; there is no test of hybref.f90", "anchors": ["src/fstd98/hybref.f90: hyb2pres (4-183)", "src/fstd98/hybref.f90: hybrid_to_pres (188-284)", "src/fstd98/hybref.f90: hybref_to_ig, ig_to_hybref (288-387)", "src/fstd98/hybref.f90: hyb_to_pres, eta_to_pres, etasef_to_pres, sigma_to_pres (652-867)"]}
{"id": "C170", "title": "Roots of Legendre polynomials and latitudes of a Gaussian grid", "statement": "Each correction is that of Newton's method for the Legendre polynomial; a root is kept; the array is antisymmetric with 0 in the middle, and consists of roots if its first half does; the latitudes are those of the roots from south to north.", "quantifier": "all orders, hemispheres, all executions of the loops", "why_tests_cant": "a statement on the reals for all orders; tests compare the latitudes of a few grids", "anchors": ["src/base/dgauss.F: DGAUSS (25-132)", "src/base/ordleg.F: ORDLEG (25-89)", "src/interp/ez_glat.inc: ez_glat (25-67)"]}
{"id": "C171", "title": "Extrapolation near the surface", "statement": "With positions as FindPos gives them, the targets below the second lowest level, and no others, receive the state of the surface plus the flux; the wind there has the speed nss*f and turns from the direction at the top of the layer in proportion to the distance below it and to the sine of the latitude.", "quantifier": "all levels in increasing or decreasing order, all targets and states", "why_tests_cant": "the tests run one set of levels; the statement is for all of both orders", "anchors": ["src/interpv/Extrap1D_Surface_Body.inc: Extrap1D_Surface_X (103-138)", "src/interpv/Extrap1D_SurfaceWind_Body.inc: Extrap1D_SurfaceWind_X (137-181)"]}
{"id": "C172", "title": "Interpolation in a regular grid: SLL, SPS", "statement": "With at least four rows and columns SLL and SPS read only the field; they give the value of the field at each of its points and reproduce polynomials of degree 3 in each variable, also outside the grid. The order 1 reproduces bilinear functions and the order 0 gives a point at most half a step away.", "quantifier": "all fields, all sizes from 4 on, all places", "why_tests_cant": "no test calls these functions; the statement is for all fields and places, and for the four combinations of inside and outside", "anchors": ["src/base/sll.F: SLL (24-140)", "src/base/sps.F: SPS, SLC (71-151)", "src/base/cubic.cdk", "src/base/lagrange.cdk"]}
{"id": "C173", "title": "Interpolation on the sphere: SGLO, SSNH, SANH", "statement": "Between the poles SGLO gives the cubic interpolation in the field continued around the sphere (periodic in longitude, half a circle away beyond a pole, symmetric or antisymmetric at the equator for SSNH and SANH); it gives the field at each of its points, the same at longitudes 360 degrees apart, and at a pole the value of a parabola through the means of the two next circles.", "quantifier": "all fields on the sphere, all sizes allowed, all places except those within one and a half steps of the south pole for SSNH and SANH", "why_tests_cant": "no test calls these functions; the statement covers each side of the poles, of Greenwich and of the equator", "anchors": ["src/base/sglo.F: SGLO, SSNH, SANH (25-217)", "src/base/idxes.F: IDXES"]}
{"id": "C174", "title": "Wind from a latitude-longitude grid: VLL", "statement": "VLL gives the speed of the interpolated components and, from 0 to 360, the direction of the wind turned by the longitude and a right angle; 99999 without wind. At the points of the grid the components are those of the fields.", "quantifier": "all fields, places and components", "why_tests_cant": "no test calls VLL; the statement is for all components and longitudes, with all quadrants of ATAN2", "anchors": ["src/base/vll.F: VLL (23-75)"]}
{"id": "C175", "title": "Rows around a place in a Gaussian grid: SGLOGG", "statement": "For a global field of at least four rows with sines of latitude in decreasing order SGLOGG finds, without reading outside ROOTS, the row JJ with ROOTS(JJ) >= MU > ROOTS(JJ+1), rows beyond a pole included, and takes as nodes the four strictly decreasing sines of the rows JJ-1 to JJ+2 continued over the poles.", "quantifier": "all numbers of rows from 4 on, all decreasing sines, all places", "why_tests_cant": "no test calls SGLOGG; the search starts from a guess, the statement is for all grids and places", "anchors": ["src/base/sglogg.F: SGLOGG (113-185)"]}
