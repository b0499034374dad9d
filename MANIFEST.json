{
 "claims": [
  {
   "property": "C01",
   "status": "proved",
   "theorems": [
    "Verif.C01_unsigned_roundtrip",
    "Verif.C01_overread_witness"
   ],
   "note": "Full round trip for all widths, offsets, strides; needs one readable bit after the stream (witness shows why)."
  },
  {
   "property": "C02",
   "status": "proved",
   "theorems": [
    "Verif.C02_signed_roundtrip"
   ],
   "note": "Full round trip for two's complement values."
  },
  {
   "property": "C03",
   "status": "proved",
   "theorems": [
    "Verif.C03_only_own_bits"
   ],
   "note": "All modes of compact_integer packing modelled (automatic signed width without header is not)."
  },
  {
   "property": "C04",
   "status": "partial",
   "theorems": [
    "Verif.C04_header_roundtrip_partial",
    "Verif.C04_auto_header_witness",
    "Verif.C04_constant_witness"
   ],
   "note": "The code violates the full statement: automatic width with header loses the top bit of 32-bit data at unaligned offsets and cannot decode constant arrays."
  },
  {
   "property": "C05",
   "status": "proved",
   "theorems": [
    "Verif.C05_narrow_roundtrip"
   ],
   "note": "Element width is a parameter (16 for compact_short, 8 for compact_char)."
  },
  {
   "property": "C06",
   "status": "proved",
   "theorems": [
    "Verif.C06_minimum_lossless"
   ],
   "note": "Whole encoder and decoder, including buffer bounds; bit length in place of the floating-point logarithm."
  },
  {
   "property": "C07",
   "status": "proved",
   "theorems": [
    "Verif.C07_parallelogram_lossless"
   ],
   "note": "Whole encoder and decoder, including buffer bounds."
  },
  {
   "property": "C08",
   "status": "proved",
   "theorems": [
    "Verif.C08_compress_outcome",
    "Verif.C08_compresses_witness"
   ],
   "note": "armn_compress COMPRESS/UNCOMPRESS including method choice, header and half-word swap; restores the first ni*nj values (see C52 for nk > 1)."
  },
  {
   "property": "C52",
   "status": "partial",
   "theorems": [
    "Verif.C52_levels_partial",
    "Verif.C52_levels_witness"
   ],
   "note": "The code violates the statement for nk > 1: only the first level is compressed."
  },
  {
   "property": "C53",
   "status": "partial",
   "theorems": [
    "Verif.C53_int130_roundtrip_partial",
    "Verif.C53_accepted_example",
    "Verif.C53_refused_witness",
    "Verif.C53_sign_witness"
   ],
   "note": "The code violates the statement for refused fields (read one word off) and for 16-bit values (sign extension)."
  },
  {
   "property": "C09",
   "status": "partial",
   "theorems": [
    "Verif.BitSlicer.C09_bits_roundtrip_partial",
    "Verif.BitSlicer.C09_aligned32_witness",
    "Verif.BitSlicer.C09_aligned32_overread",
    "Verif.BitSlicer.C09_overread_witness"
   ],
   "note": "The code violates the statement: a 32-bit slice starting at a word boundary is read as the next word. Proved for all other slice sequences."
  },
  {
   "property": "C10",
   "status": "partial",
   "theorems": [
    "Verif.Rle.C10_rle_roundtrip_partial",
    "Verif.Rle.C10_tokens_example",
    "Verif.Rle.C10_lost_run_witness",
    "Verif.Rle.C10_no_room_witness"
   ],
   "note": "The code violates the statement: pending repeats are lost when the last element starts a new run. Proved otherwise."
  },
  {
   "property": "C12",
   "status": "proved",
   "theorems": [
    "Verif.Base40.C12_base40_roundtrip",
    "Verif.Base40.C12_base40_long",
    "Verif.Base40.C12_base40_injective",
    "Verif.Base40.C12_overflow_witness",
    "Verif.Base40.C12_length_witness"
   ],
   "note": "Holds for strings whose value fits a 32-bit integer (always up to 5 characters); witnesses show the limits."
  },
  {
   "property": "C13",
   "status": "proved",
   "theorems": [
    "Verif.Arc4.C13_decrypt",
    "Verif.Arc4.C13_split",
    "Verif.Arc4.C13_permutation"
   ],
   "note": "Whole cipher; state is a list of 256 bytes."
  },
  {
   "property": "C14",
   "status": "proved",
   "theorems": [
    "Verif.Crc.C14_crc_is_division",
    "Verif.Crc.C14_crc_burst",
    "Verif.Crc.C14_crc_two_bytes",
    "Verif.Crc.C14_crc_linear"
   ],
   "note": "The table-driven update equals bitwise division; any burst up to 16 bits changes the checksum."
  },
  {
   "property": "C50",
   "status": "partial",
   "theorems": [
    "Verif.EzCherche.C50_bracket_partial",
    "Verif.EzCherche.C50_ascending_partial",
    "Verif.EzCherche.C50_large_table_witness"
   ],
   "note": "Proved for tables of fewer than 2^23 entries; the single-precision midpoint makes the search loop forever on larger tables (witness)."
  },
  {
   "property": "C51",
   "status": "proved",
   "theorems": [
    "Verif.SwapBuffer.C51_swap"
   ],
   "note": ""
  },
  {
   "property": "C11",
   "status": "proved",
   "theorems": [
    "Verif.Ieeepak.C11_ieeepak_roundtrip",
    "Verif.Ieeepak.C11_overread_witness"
   ],
   "note": "All widths up to 32 bits; needs one readable word after the unpacked field (witness). 64-bit mode (MOVE6432) not modelled."
  },
  {
   "property": "C15",
   "status": "proved",
   "theorems": [
    "Verif.Handles.C15_handle_decodes",
    "Verif.Handles.C15_handle_injective",
    "Verif.Handles.C15_seq_opened_witness"
   ],
   "note": "Holds while no sequential file is open; the witness shows that an open sequential file makes file indices above 127 ambiguous."
  },
  {
   "property": "C16",
   "status": "proved",
   "theorems": [
    "Verif.Handles.C16_seq_handle_decodes",
    "Verif.Handles.C16_appends_aligned",
    "Verif.Handles.C16_unaligned_witness"
   ],
   "note": "Handle round trip for aligned addresses below 2 Gb, and appending keeps addresses aligned."
  },
  {
   "property": "C17",
   "status": "proved",
   "theorems": [
    "Verif.Props.FstKeys.C17_descriptors_round_trip"
   ],
   "note": "All descriptors within the ranges checked by c_fstecr; names over the 6-bit set plus lower-case letters; dates ending in 8 or 9 excluded (C34); the origin date computed by incdatr is not part of the model."
  },
  {
   "property": "C18",
   "status": "partial",
   "theorems": [
    "Verif.Props.FstKeys.C18_match_exact",
    "Verif.Props.FstKeys.C18_search_matches_partial",
    "Verif.Props.FstKeys.C18_label_witness"
   ],
   "note": "The code violates the statement for labels whose first ten characters are blank (last two ignored); proved for all other criteria, exact condition proved too. ip1_all-style flags not modelled."
  },
  {
   "property": "C34",
   "status": "partial",
   "theorems": [
    "Verif.Props.FstKeys.C34_date_round_trip_partial",
    "Verif.Props.FstKeys.C34_octal_injective",
    "Verif.Props.FstKeys.C34_last_digit",
    "Verif.Props.FstKeys.C34_last_digit_witness"
   ],
   "note": "The code violates the statement for stamps ending in 8 or 9, which come back 2 too large; proved for all others."
  },
  {
   "property": "C20",
   "status": "proved",
   "theorems": [
    "Verif.Xdf.C20_delete",
    "Verif.Xdf.C20_not_found"
   ],
   "note": "All histories of appends, rewrites, deletions, checkpoints, closings and reopenings of one random file, at the XDF level (c_xdfdel behind c_fsteff). Not readable by its handle, not found by any search."
  },
  {
   "property": "C21",
   "status": "proved",
   "theorems": [
    "Verif.Xdf.C21_history",
    "Verif.Xdf.C21_read_back",
    "Verif.Xdf.C21_rewrite"
   ],
   "note": "XDF level: directory pages, record placement, disk words. Refinement to a list of slots for all histories."
  },
  {
   "property": "C22",
   "status": "proved",
   "theorems": [
    "Verif.Xdf.C22_close_open"
   ],
   "note": "All histories, any number of directory pages up to the 1024 the library allows; files below 2^30 64-bit units (the code's int addresses)."
  },
  {
   "property": "C23",
   "status": "proved",
   "theorems": [
    "Verif.Xdf.C23_crash"
   ],
   "note": "Crash = any subset, cut or reordering of the session's writes. Checkpoints inside the session are excluded (they write the directory)."
  },
  {
   "property": "C24",
   "status": "proved",
   "theorems": [
    "Verif.Xdf.C24_half_closed",
    "Verif.Xdf.C24_prefix"
   ],
   "note": "Any part of the writes between the first and the last write of close."
  },
  {
   "property": "C25",
   "status": "partial",
   "theorems": [
    "Verif.Xdf.C25_written_passes",
    "Verif.Xdf.C25_one_word_partial",
    "Verif.Xdf.C25_first_words_unprotected"
   ],
   "note": "The code violates the statement for the first four words of a page, which no checksum covers; proved for all other words."
  },
  {
   "property": "C26",
   "status": "proved",
   "theorems": [
    "Verif.Xdf.C26_counts"
   ],
   "note": "Header nrec after any history."
  },
  {
   "property": "C19",
   "status": "proved",
   "theorems": [
    "Verif.Xdf.C19_sweep",
    "Verif.Xdf.C19_resume"
   ],
   "note": "fstinf/fstsui/fstinl on one random file after any history; nmax positive for fstinl. Searching resumed by handle also covered."
  },
  {
   "property": "C28",
   "status": "proved",
   "theorems": [
    "Verif.Xdf.C28_linked_sweep",
    "Verif.Xdf.SearchExample.C28_resume_witness"
   ],
   "note": "Any number of distinct linked random files with fewer than 4096 pages in total. The witness shows that resuming a search by handle (fstinfx) on a page of a linked file uses an unset pointer."
  },
  {
   "property": "C27",
   "status": "partial",
   "theorems": [
    "Verif.Xdf.C27_rewrite_partial",
    "Verif.Xdf.EcrExample.C27_date_witness",
    "Verif.Xdf.EcrExample.C27_blank_witness"
   ],
   "note": "The code violates the statement: the date is not compared, and blank names act as wildcards (witnesses). Proved for everything else, after any history of the file."
  },
  {
   "property": "C29",
   "status": "proved",
   "theorems": [
    "Verif.Date.C29_date_back",
    "Verif.Date.C29_number_back",
    "Verif.Date.C29_consecutive",
    "Verif.Date.C29_no_overflow"
   ],
   "note": "Years 0 to 9999; Int arithmetic, with a separate theorem that no intermediate value leaves 32 bits."
  },
  {
   "property": "C30",
   "status": "partial",
   "theorems": [
    "Verif.Date.C30_printable",
    "Verif.Date.C30_truedate",
    "Verif.Date.C30_stamp_back",
    "Verif.Date.C30_extended",
    "Verif.Date.C30_printable_truedate_partial",
    "Verif.Date.C30_truedate_accepted",
    "Verif.Date.C30_mode2_witness"
   ],
   "note": "All conversions round trip except mode 2 for 1901-01-01 01Z, where the code returns an extended true date (witness)."
  },
  {
   "property": "C31",
   "status": "proved",
   "theorems": [
    "Verif.Date.C31_injective",
    "Verif.Date.C31_monotone",
    "Verif.Date.C31_monotone_extended"
   ],
   "note": "Monotone for new-style stamps (from 2000) and for extended stamps as unsigned numbers; old-style stamps are injective only."
  },
  {
   "property": "C54",
   "status": "proved",
   "theorems": [
    "Verif.Date.C54_array",
    "Verif.Date.C54_weekday"
   ],
   "note": "Month, day, year, hour, hundredths of the hour and weekday words; the text words of the array are not modelled."
  },
  {
   "property": "C32",
   "status": "partial",
   "theorems": [
    "Verif.Date.C32_incdat",
    "Verif.Date.C32_difdat",
    "Verif.Date.C32_add_subtract_partial",
    "Verif.Date.C32_subtract_add_partial",
    "Verif.Date.C32_incdat_minutes",
    "Verif.Date.C32_difdat_minutes",
    "Verif.Date.C32_real",
    "Verif.Date.C32_backward_witness",
    "Verif.Date.C32_exception_witness",
    "Verif.Date.C32_uninitialised_witness"
   ],
   "note": "All three calendars, all stamps, all hours; excluded are exactly the cases of Trouble, in which the code is wrong (witnesses)."
  },
  {
   "property": "C33",
   "status": "partial",
   "theorems": [
    "Verif.Date.C33_never_partial",
    "Verif.Date.C33_years",
    "Verif.Date.C32_backward_witness"
   ],
   "note": "Adding years of 365 days is proved outright; never 29 February is proved except when going back from 28 February 23h of a leap year in extended dates, where the library is a day off."
  },
  {
   "property": "C35",
   "status": "partial",
   "theorems": [
    "Props.WhiteBoard.C35_partial",
    "Props.WhiteBoard.C35_no_corruption",
    "Props.WhiteBoard.C35_lost_witness"
   ],
   "note": "All histories of puts, locks and checkpoint/restarts over any number of variables and pages, for all types. Missing: the two misuses under which the code itself breaks the statement (contradictory options on a large variable, array put over an 8-byte scalar or string), shown by witnesses."
  },
  {
   "property": "C36",
   "status": "partial",
   "theorems": [
    "Props.WhiteBoard.C36_partial",
    "Props.WhiteBoard.C36_by_option",
    "Props.WhiteBoard.C36_by_lock",
    "Props.WhiteBoard.C36_array_on_scalar_witness"
   ],
   "note": "All histories; excluded is an array put over an 8-byte scalar or a string, by which the code overwrites its neighbours, read-only or not (witness)."
  },
  {
   "property": "C37",
   "status": "partial",
   "theorems": [
    "Props.WhiteBoard.C37_partial",
    "Props.WhiteBoard.C37_witness"
   ],
   "note": "The code violates the statement: a put refused for type, dimension or length makes the old value unreadable (witness). Proved: other variables are untouched, and the own one is either untouched or reports WB_ERR_BADVAL."
  },
  {
   "property": "C38",
   "status": "proved",
   "theorems": [
    "Props.WhiteBoard.C38"
   ],
   "note": "Every whiteboard reached by a history of puts, locks and restarts, any old bytes behind the checkpoint; local variables come back without value."
  },
  {
   "property": "C39",
   "status": "partial",
   "theorems": [
    "Props.WaFile.C39_partial",
    "Props.WaFile.C39_one_page_partial",
    "Props.WaFile.C39_written_partial",
    "Props.WaFile.C39_reads_stop",
    "Props.WaFile.C39_two_pages_witness",
    "Props.WaFile.C39_page_end_witness",
    "Props.WaFile.C39_lost_word_witness"
   ],
   "note": "All histories, page sizes, page counts, evictions and memory contents. The code violates the statement: reads stop the program when the file has two pages (proved), requests starting at the last word of a page access memory outside it, and a write ending one word before the end of file can destroy that word (witnesses). Proved for the rest: never a wrong word, and never a stop with one page or without reads."
  },
  {
   "property": "C40",
   "status": "partial",
   "theorems": [
    "Props.WaFile.C40_partial",
    "Props.WaFile.C40_hole_witness",
    "Props.WaFile.C40_end_witness"
   ],
   "note": "All histories. The code violates the statement for holes over 512 words, filled from the stack, and stops on a read two words after the end (witnesses); proved for the rest. Sequential access (offset 0) not modelled."
  },
  {
   "property": "C41",
   "status": "partial",
   "theorems": [
    "Props.FloatPacker.C41_partial",
    "Props.FloatPacker.C41_no_overflow",
    "Props.FloatPacker.C41_small_witness",
    "Props.FloatPacker.sub_exists"
   ],
   "note": "All finite fields of any length, widths 1 to 16, any nearest-float subtraction. Missing, because the code violates the statement there (witness): fields that contain zero or subnormal numbers and nothing as large as 2^-103."
  },
  {
   "property": "C42",
   "status": "partial",
   "theorems": [
    "Props.Missing.C42_integer_partial",
    "Props.Missing.C42_real_partial",
    "Props.Missing.encode_none",
    "Props.Missing.C42_first",
    "Props.Missing.C42_first_witness",
    "Props.Missing.C42_short_witness",
    "Props.Missing.C42_flag_witness",
    "Props.Missing.C42_negative_witness",
    "Props.Missing.C42_kind_witness",
    "Props.Missing.C42_packed_witness"
   ],
   "note": "All types, widths, flags and fields. The code violates the statement for fields that start with a missing value (proved for all of them), signed shorts and bytes with a value above -2, fields whose maximum is the flag less one, nearly constant negative real fields (witnesses); proved for the rest. Real arithmetic: monotone roundings with relative error 2^-24, no overflow or underflow."
  },
  {
   "property": "C43",
   "status": "partial",
   "theorems": [
    "Props.Excdes.C43_partial",
    "Props.Excdes.C43_open_range",
    "Props.Excdes.C43_open_range_witness",
    "Props.Excdes.C43_refused_witness",
    "Props.Excdes.C43_bad_date_witness",
    "Props.Excdes.C43_ig4_witness",
    "Props.Excdes.C43_zero_witness",
    "Props.Excdes.C43_negative_date_witness",
    "Props.Excdes.C43_set_witness"
   ],
   "note": "All histories of requests, resets and group selections, and all records. Missing, because the code violates the statement there: open ranges of ip1, ip2 and ip3 accept every level of the kind (proved in general), ig4 is compared with ig2, a refused call drops the date criterion of the set, a refused date list leaves a set that every record satisfies, negative stamps are taken for open ends (witnesses)."
  },
  {
   "property": "C44",
   "status": "partial",
   "theorems": [
    "Props.Jar.C44_fifo",
    "Props.Jar.C44_positions_partial",
    "Props.Jar.C44_array_partial",
    "Props.Jar.C44_overflow",
    "Props.Jar.C44_clear_witness"
   ],
   "note": "All sequences of inserts, extracts and resets, all sizes, any initial memory: without positions a jar is a queue; with positions it is a list of bytes. The code violates the statement for inserts at a position more than one behind the end, which always write outside the jar (proved); all other positions are covered."
  },
  {
   "property": "C45",
   "status": "proved",
   "theorems": [
    "Props.Sorts.C45",
    "Props.Sorts.C45_given",
    "Props.Sorts.comb_fuel",
    "Props.Sorts.C45_empty_witness"
   ],
   "note": "All arrays of any type with a comparison that orders them (numbers other than NaN, strings), any quotient of the gap within 2^-22 of gap/1.3. Covers ipsort, ipsort8, ipsorti, ipsortc. With no elements ipsort still writes index[0] (witness)."
  },
  {
   "property": "C46",
   "status": "proved",
   "theorems": [
    "Props.Sorts.C46"
   ],
   "note": "All arrays and comparisons that order them; access outside the array is an error in the model and does not occur."
  },
  {
   "property": "C47",
   "status": "proved",
   "theorems": [
    "Props.Grid.C47_E_lattice",
    "Props.Grid.C47_E",
    "Props.Grid.C47_L_lattice",
    "Props.Grid.C47_L",
    "Props.Grid.C47_plus",
    "Props.Grid.C47_plus_exact",
    "Props.Grid.C47_A",
    "Props.Grid.C47_H",
    "Props.Grid.C47_N",
    "Props.Grid.C47_C",
    "Props.Grid.C47_loop_witness",
    "Props.Grid.good_nearest"
   ],
   "note": "All parameters of the documented ranges, on the lattice and off it, any rounding with the error bounds of IEEE single and double precision (underflow included). E comes back bit for bit on its lattice; L within rounding; + within one hundred thousandth of a degree, bit for bit from 129 degrees. Also grids A, B, G, C, H and the first style of N and S; the general style of N and S (trigonometry) is not modelled. Very negative longitudes make the code loop for ever (witness)."
  },
  {
   "property": "C48",
   "status": "partial",
   "theorems": [
    "Props.Convip.C48_partial",
    "Props.Convip.C48_integers",
    "Props.Convip.C48_stable_partial",
    "Props.Convip.C48_negative_witness",
    "Props.Convip.C48_stable_witness",
    "Props.Convip.C48_index_witness",
    "Props.Convip.C48_kind_witness",
    "Props.Convip.good_nearest"
   ],
   "note": "All kinds defined in the code and all single precision values of their ranges, any rounding to nearest. The code violates the statement for negative values over -4.9e-12, which come back positive (proved for all of them); 999999.5 is encoded with a pseudo mantissa of 1000000 and its decoded value in another way; indices over 4.8e8 have no code; kinds that are not defined are encoded without an error (witnesses). The smallest values of kinds 6, 17 and 21 come back as the base value. Re-encoding is stable for all codes with a normal pseudo mantissa."
  },
  {
   "property": "C55",
   "status": "partial",
   "theorems": [
    "Props.ConvipOld.C55_partial",
    "Props.ConvipOld.C55_high_witness",
    "Props.ConvipOld.C55_ten_witness",
    "Props.ConvipOld.C55_one_witness"
   ],
   "note": "All values of the ranges and all roundings, except pressures from 1099.4 mb and bands just under 10, 1, 0.1 and 0.01 mb, where the code violates the statement: 1099.75 mb comes back as the arbitrary code 100, 9.98 mb as sigma 0, 0.998 mb as 0 mb (witnesses)."
  },
  {
   "property": "C49",
   "status": "partial",
   "theorems": [
    "Verif.Burp.C49_history_partial",
    "Verif.Burp.C49_params_partial",
    "Verif.Burp.C49_missing_partial",
    "Verif.Burp.C49_refused",
    "Verif.Burp.C49_number",
    "Verif.Burp.C49_delete_witness",
    "Verif.Burp.C49_refused_witness",
    "Verif.Burp.C49_zero_width_witness"
   ],
   "note": "All histories of additions, deletions and replacements, any number of blocks, all dimensions, element lists, widths and types 2 to 9. Missing, because the code violates the statement there: deleting a block of type 3 leaves its values and shifts the others (witness), an addition refused for its type has already moved the other blocks (witness), width 0 with missing values only (witness). Room: the report must hold all blocks at 32 bits an element and one more word."
  },
  {
   "property": "C56",
   "status": "partial",
   "theorems": [
    "Verif.Burp.C56_search_partial"
   ],
   "note": "All histories of C49 and all search arguments of the documented ranges; same exclusions as C49."
  },
  {
   "property": "C57",
   "status": "partial",
   "theorems": [
    "Verif.Armn32.compress32_round_trip_partial",
    "Verif.Armn32.compress32_small",
    "Verif.Armn32.compress32_constant"
   ],
   "note": "All fields of 16 by 16 points or more and all bit patterns, widths 10 to 32, any uninitialised arrays in the decoder, memory of znbits+6 bits an element and 16 words. Missing: widths under 10 (the code shifts by 32 or more), the smaller buffer of c_fstecr (the space test covers neither edges nor constant tiles; found by reading, no witness proved), levels after the first. Constant fields are never refused."
  },
  {
   "property": "C58",
   "status": "proved",
   "theorems": [
    "Verif.Armn32.bits_round_trip"
   ],
   "note": "All lengths and arrays; any memory with room for the longest stream."
  },
  {
   "property": "C59",
   "status": "partial",
   "theorems": [
    "Props.CompactFloat.C59_partial",
    "Props.CompactFloat.C59_narrow_witness",
    "Props.CompactFloat.C59_subnormal_witness",
    "Props.CompactFloat.C59_all_missing_witness"
   ],
   "note": "All fields with values up to 9.9e37, widths 1 to 32 equal in header and stream, both header styles, all positions, with and without missing values, any rounding that is accurate, monotone and exact on floats (rounding to nearest is proved to be one). Missing, because the code violates the statement there: a minimum below the normal numbers (witness), missing values only (witness: reads past the array), token width other than stream width as for type 129 with nbits under 16 (witness). Not modelled: strides other than 1, compact_double on values that are not floats."
  },
  {
   "property": "C60",
   "status": "partial",
   "theorems": [
    "Props.ConvertIp.C60_levels_partial",
    "Props.ConvertIp.C60_times_partial",
    "Props.ConvertIp.C60_single_partial",
    "Props.ConvertIp.C60_third_level",
    "Props.ConvertIp.C60_sound",
    "Props.ConvertIp.C60_depth_witness",
    "Props.ConvertIp.C60_top_witness",
    "Props.ConvertIp.C60_old_witness",
    "Props.ConvertIp.C60_range_witness"
   ],
   "note": "All level kinds 0 to 6, all orders, any uninitialised variables, any rounding to nearest; C60_sound holds for all codes. Missing, because the code violates the statement there (witnesses, proved for all such values): kinds 7 and 21 are coded but flagged as errors when decoded and their ranges are not recognised; a range of pressures up to zero loses its second level and may turn into a range of times taken from memory; the status for a time in the old style depends on memory; values out of range are reported as coded. Also the values excepted in C48."
  },
  {
   "property": "C61",
   "status": "partial",
   "theorems": [
    "Props.ConvertIp.C61_levels_partial",
    "Props.ConvertIp.C61_times_partial",
    "Props.ConvertIp.C61_range_partial",
    "Props.ConvertIp.C61_single_partial",
    "Props.ConvertIp.C61_sound",
    "Props.ConvertIp.C61_exchange",
    "Props.ConvertIp.C61_legacy",
    "Props.ConvertIp.C61_top_witness"
   ],
   "note": "All level kinds, orders and third kinds, any rounding to nearest; C61_sound holds for all codes. Missing: zero pressure as a second or third value, which the code returns as a time or an arbitrary code (witness); the values excepted in C48."
  },
  {
   "property": "C62",
   "status": "proved",
   "theorems": [
    "Props.Md5.C62_parts",
    "Props.Md5.C62_md5",
    "Props.Md5.C62_hmac",
    "Props.Md5.C62_table"
   ],
   "note": "All messages, cuts and keys; parts of less than 2^31 bytes (the type of the argument), 64-byte buffer in the context. The table of constants is proved equal to the integer parts of 2^32 |sin(i)|. Errors of the file in md5_file are left out."
  },
  {
   "property": "C63",
   "status": "proved",
   "theorems": [
    "Props.Bufr.C63_name",
    "Props.Bufr.C63_code",
    "Props.Bufr.C63_list",
    "Props.Bufr.C63_type",
    "Props.Bufr.C63_type_back",
    "Props.Bufr.C63_collision_witness"
   ],
   "note": "Outside the stated ranges the last three digits are not masked and elements take the codes of others (witness)."
  },
  {
   "property": "C64",
   "status": "partial",
   "theorems": [
    "Props.Bufr.C64_sort",
    "Props.Bufr.C64_search",
    "Props.Bufr.C64_user_partial",
    "Props.Bufr.C64_user_witness",
    "Props.Bufr.C64_hidden_witness"
   ],
   "note": "All tables. The code violates the statement for mrbsct: rows of the user are appended, so the table is no longer sorted; they are not found when their codes are lower (witness), and rows of the table may no longer be found (witness). Proved for codes above the table. The size of the table is not checked by mrbsct."
  },
  {
   "property": "C65",
   "status": "partial",
   "theorems": [
    "Props.Bufr.C65_code_partial",
    "Props.Bufr.C65_codes_partial",
    "Props.Bufr.C65_value",
    "Props.Bufr.C65_twice_witness",
    "Props.Bufr.C65_longitude_witness"
   ],
   "note": "All codes that stand for less than 2^22 units of the last digit, all scales from -12 to 12, missing value of at least 2^64 in magnitude (it is 1e30). Missing: larger numbers, where two codes may give the same real (witness for longitudes to five digits). A second conversion of the same codes gives other values because the first one changes negative codes in place (witness). Overflow of the code is not modelled."
  },
  {
   "property": "C66",
   "status": "proved",
   "theorems": [
    "Verif.Interp1D.C66_up",
    "Verif.Interp1D.C66_down",
    "Verif.Interp1D.aroundUp_inside",
    "Verif.Interp1D.C66_order_witness"
   ],
   "note": "Up to 2800 levels, where all real indices are exact in single precision. The order is taken from the first set: sets in the other order are searched wrongly (witness)."
  },
  {
   "property": "C67",
   "status": "proved",
   "theorems": [
    "Verif.Interp1D.C67_linear_affine",
    "Verif.Interp1D.C67_linear_between",
    "Verif.Interp1D.C67_linear_level",
    "Verif.Interp1D.C67_linear_exact",
    "Verif.Interp1D.C67_linear_error",
    "Verif.Interp1D.C67_nearest",
    "Verif.Interp1D.C67_lagrange_cubic",
    "Verif.Interp1D.C67_lagrange_level",
    "Verif.Interp1D.C67_hermite_cubic",
    "Verif.Interp1D.C67_hermite_level",
    "Verif.Interp1D.C67_clamp"
   ],
   "note": "Reproduction of polynomials is proved in exact arithmetic; for rounded arithmetic there is an error bound for the linear routine only. Lagrange on one thread, see C69."
  },
  {
   "property": "C68",
   "status": "partial",
   "theorems": [
    "Verif.Interp1D.C68_extrapolation_partial",
    "Verif.Interp1D.C68_two_levels_witness"
   ],
   "note": "The code violates the statement for two levels with both sides enabled: targets above are not extrapolated and the program is not stopped (witness). Proved for three levels or more, or one side."
  },
  {
   "property": "C69",
   "status": "partial",
   "theorems": [
    "Verif.Interp1D.C69_undisturbed_partial",
    "Verif.Interp1D.C69_same_levels_partial",
    "Verif.Interp1D.C69_race_witness",
    "Verif.Interp1D.C69_equal_levels_witness"
   ],
   "note": "The code violates the statement: firstLevel is not in the list of private variables of the parallel loop, so that threads use the levels of each other (witness), or divide by zero (witness). Proved for threads that are not disturbed and for threads with the same levels. The reads of the shared variable are taken as done in the order of the text; a compiler may do fewer."
  },
  {
   "property": "C70",
   "status": "partial",
   "theorems": [
    "Props.NamedArrays.C70_map_partial",
    "Props.NamedArrays.C70_get_later",
    "Props.NamedArrays.C70_array_kept",
    "Props.NamedArrays.C70_directory_full",
    "Props.NamedArrays.C70_type_confusion_witness",
    "Props.NamedArrays.C70_undefined_pointer_witness",
    "Props.NamedArrays.C70_deleted_twice_witness",
    "Props.NamedArrays.C70_keys_empty_witness",
    "Props.NamedArrays.C70_keys_deleted_witness"
   ],
   "note": "All programs, with the variable's own type in each call. The code violates the statement otherwise: gmm_get and gmm_create of another type of the same rank hand back the array of another variable (witness) or an undefined pointer (witness); the name of deleted variables can be deleted again (witness); after gmm_keys with no variables gmm_get reads outside of the directory (witness); deleted variables are still listed (witness) and use up the 2048 places (proved). allocate is taken to succeed."
  },
  {
   "property": "C71",
   "status": "partial",
   "theorems": [
    "Props.NamedArrays.C71_cycle_partial",
    "Props.NamedArrays.C71_move",
    "Props.NamedArrays.C71_missing_witness"
   ],
   "note": "Lists of any length of which all variables exist, and two names of which one exists. With three names and one missing the code moves the wrong variables and reports success (witness). The list must not contain the temporary name of the code."
  },
  {
   "property": "C72",
   "status": "proved",
   "theorems": [
    "Props.NamedArrays.C72_restart",
    "Props.NamedArrays.C72_create"
   ],
   "note": "All programs allowed in C70. The file is a list of records; its coding is the one of the Fortran run time system."
  },
  {
   "property": "C73",
   "status": "proved",
   "theorems": [
    "Verif.Crc3.C73_code16",
    "Verif.Crc3.C73_code24",
    "Verif.Crc3.C73_code32",
    "Verif.Crc3.C73_crc32",
    "Verif.Crc3.C73_burst"
   ],
   "note": "All messages and cuts; polynomials over the field of two elements from Mathlib. Little endian machine; sizes of tokens are powers of two, as the code needs. crc32 of a null pointer is left out."
  },
  {
   "property": "C74",
   "status": "partial",
   "theorems": [
    "Verif.EzGrid.C74_numbers",
    "Verif.EzGrid.C74_define_partial",
    "Verif.EzGrid.C74_release_partial",
    "Verif.EzGrid.C74_reuse_witness",
    "Verif.EzGrid.C74_count_witness",
    "Verif.EzGrid.C74_axes_witness",
    "Verif.EzGrid.C74_again_witness",
    "Verif.EzGrid.C74_pole_witness",
    "Verif.EzGrid.C74_reference_witness",
    "Verif.EzGrid.C74_sharp_witness"
   ],
   "note": "Proved for c_ezgdef_fmem with any code function: which calls share a number (exactly), and the statement itself if no two calls of equal code differ only in the reference or in signs of zeros; with releases if codes differ and only the last number is given up by its last user. The code violates the statement otherwise, each with a witness that holds for all grids of its kind: a release in the middle lets the next definition overwrite a grid in use; a failed search counts as a use; grids of a file with other axes but equal numbers of records get the old grid; with ig4 not zero the grid is never found again; two polar references with swapped coordinates make the search endless; equal codes hide the reference; a second definition of a grid # reads outside of its axis. Type U is left out."
  },
  {
   "property": "C75",
   "status": "partial",
   "theorems": [
    "Verif.EzSets.C75_define",
    "Verif.EzSets.C75_limit",
    "Verif.EzSets.C75_few_partial",
    "Verif.EzSets.C75_small_partial",
    "Verif.EzSets.C75_growth_witness",
    "Verif.EzSets.C75_edge_witness",
    "Verif.EzSets.C75_index_witness",
    "Verif.EzSets.C75_copy_witness",
    "Verif.EzSets.C75_wrap_witness",
    "Verif.EzSets.C75_null_witness"
   ],
   "note": "The table is right after any calls of c_ezdefset that do not fail. The statement is proved for fewer than 63 input grids of any numbers (c_find_gdin with conditions), and for any calls with numbers below 127. The code violates it otherwise, each with a witness: c_find_gdin uses the size of the first table after growth; it reads outside of the table for the last place; the number of a grid is stored as an index; growth copies outside of the new table; ez_find_gdin_in_gset wraps at 127; a search without pairs uses a null pointer; 2046 input grids always fail (C75_limit)."
  },
  {
   "property": "C76",
   "status": "partial",
   "theorems": [
    "Verif.EzInterp.C76_nearest",
    "Verif.EzInterp.C76_bilinear_exact",
    "Verif.EzInterp.C76_bilinear_between",
    "Verif.EzInterp.C76_bilinear_point",
    "Verif.EzInterp.C76_bicubic_partial",
    "Verif.EzInterp.C76_bicubic_point",
    "Verif.EzInterp.C76_bicubic_constant",
    "Verif.EzInterp.C76_corner_witness",
    "Verif.EzInterp.C76_negative_witness",
    "Verif.EzInterp.C76_narrow_witness"
   ],
   "note": "Exact arithmetic on rationals. The bicubic kernel uses 1/6 and 1/3 in single precision, so polynomials are reproduced up to 2^-24 of the largest value (2^-20 in the first and last cells); a constant field is not reproduced at the last point, even after rounding to single precision (witness). Between the rows -1 and 0 the bilinear kernel extrapolates (witness). With three columns the bicubic kernel reads outside of the array (witness)."
  },
  {
   "property": "C77",
   "status": "partial",
   "theorems": [
    "Verif.EzInterp.C77_bilinear",
    "Verif.EzInterp.C77_bicubic",
    "Verif.EzInterp.C77_bicubic_partial",
    "Verif.EzInterp.C77_seam_witness",
    "Verif.EzInterp.C77_seam_error"
   ],
   "note": "Exact arithmetic on rationals. For the bicubic kernel on a grid whose last column repeats the first the code violates the statement in the cell between columns ni-2 and ni-1 (witness, and the error for all fields); proved elsewhere."
  },
  {
   "property": "C78",
   "status": "partial",
   "theorems": [
    "Verif.EzInterp.C78_newton_partial",
    "Verif.EzInterp.C78_newton_point",
    "Verif.EzInterp.C78_bilinear",
    "Verif.EzInterp.C78_bilinear_wrap_partial",
    "Verif.EzInterp.C78_wrap_partial",
    "Verif.EzInterp.C78_wrap_one",
    "Verif.EzInterp.C78_edge_witness",
    "Verif.EzInterp.C78_first_row",
    "Verif.EzInterp.C78_zero_witness",
    "Verif.EzInterp.C78_origin_witness"
   ],
   "note": "Exact arithmetic on rationals. The code violates the statement: in the first and last cells of an irregular axis the coordinate is taken with the spacing of the next cell, so border points are wrong (witness); the bilinear kernel that wraps never uses the first row (C78_first_row) and divides zero by zero at the seam if the second coordinate is zero (witness); for a global axis that does not start at zero the inverse distances of the first cell are wrong (witness). Proved elsewhere. ez_irgdint_3_nw evaluates its statement functions in single precision, which is not modelled."
  },
  {
   "property": "C79",
   "status": "proved",
   "theorems": [
    "Verif.Gossip.C79_write",
    "Verif.Gossip.C79_write_done",
    "Verif.Gossip.C79_read",
    "Verif.Gossip.C79_read_count",
    "Verif.Gossip.C79_read_done"
   ],
   "note": "The schedule of outcomes of the system calls is a list, over which the theorems quantify."
  },
  {
   "property": "C80",
   "status": "proved",
   "theorems": [
    "Verif.Gossip.C80_interleaving",
    "Verif.Gossip.C80_exchange"
   ],
   "note": "Two processes and two FIFO channels, one byte per step; steps of different processes commute, so one terminating execution determines all. Lengths below 2^31 bytes."
  },
  {
   "property": "C81",
   "status": "partial",
   "theorems": [
    "Verif.Gossip.C81_bounds",
    "Verif.Gossip.C81_other_size",
    "Verif.Gossip.C81_oversize",
    "Verif.Gossip.C81_next_lost",
    "Verif.Gossip.C81_desync_witness",
    "Verif.Gossip.C81_overflow_witness",
    "Verif.Gossip.C81_freed_witness",
    "Verif.Gossip.C81_junk_witness",
    "Verif.Gossip.C81_array_kept",
    "Verif.Gossip.C81_swapped_witness"
   ],
   "note": "Proved: bounds and sizes for every peer and every failure if a maximum is given; the connection stays usable after a record of another size within the maximum; the array of the writer is kept if 0 is returned. The code violates the rest: after a record above the maximum its second tag stays on the connection and the next record is lost (C81_oversize, C81_next_lost); without a maximum nothing bounds the store; on different tags the buffer of the caller is freed; a missing tag is an uninitialised value; the array of the writer stays byte-swapped when the transfer fails. write_record returns 0 for refused records."
  },
  {
   "property": "C82",
   "status": "partial",
   "theorems": [
    "Verif.Mgi.C82_set_get",
    "Verif.Mgi.C82_open",
    "Verif.Mgi.C82_full",
    "Verif.Mgi.C82_short_witness",
    "Verif.Mgi.C82_zero_witness",
    "Verif.Mgi.C82_unregistered_witness",
    "Verif.Mgi.C82_reuse_witness"
   ],
   "note": "Proved for channels registered by mgi_open and time-outs above 3 (the opposite of values up to 3 is returned: 1, 2 and 3 become negative). Not so for descriptor 0 (an unused entry is found), for channels that are not registered (lost at the next opening, and stored outside a full table) and for descriptors used again."
  },
  {
   "property": "C83",
   "status": "partial",
   "theorems": [
    "Verif.Mgi.C83_name",
    "Verif.Mgi.C83_overread",
    "Verif.Mgi.C83_numbers",
    "Verif.Mgi.C83_exhausted",
    "Verif.Mgi.C83_term",
    "Verif.Mgi.C83_open_write",
    "Verif.Mgi.C83_open_read_partial",
    "Verif.Mgi.C83_retry_witness"
   ],
   "note": "Proved: names (with one character read beyond a name without blank, C83_overread), numbers, openings for writing. The code violates the rest: numbers are not given back and failed calls count, so that mgi_term looks outside the table after 24 calls (C83_term); a channel opened for reading is connected in mode write if the first attempt fails (witness)."
  },
  {
   "property": "C84",
   "status": "partial",
   "theorems": [
    "Verif.FstData.C84_unsigned",
    "Verif.FstData.C84_unsigned_short",
    "Verif.FstData.C84_unsigned_byte_partial",
    "Verif.FstData.C84_signed",
    "Verif.FstData.C84_signed_narrow",
    "Verif.FstData.C84_text_partial",
    "Verif.FstData.C84_char_partial",
    "Verif.FstData.C84_plain_partial",
    "Verif.FstData.C84_ieee",
    "Verif.FstData.C84_double",
    "Verif.FstData.C84_complex",
    "Verif.FstData.C84_real_partial",
    "Verif.FstData.C84_packed_partial",
    "Verif.FstData.C84_byte_witness",
    "Verif.FstData.C84_text_witness",
    "Verif.FstData.C84_char_witness",
    "Verif.FstData.C84_double_witness",
    "Verif.FstData.C84_complex_witness"
   ],
   "note": "From the request through plan, record and work field to the array of the reader, for types 0 to 8 (not the compressed ones: C06 to C09, C57; not doubles packed by compact_double); xdf_stride 1. The code violates the property for bytes and text with less than 8 bits, characters on several levels, doubles stored as type 1 with 31 or 32 bits, complex fields without packing (witnesses)."
  },
  {
   "property": "C85",
   "status": "partial",
   "theorems": [
    "Verif.FstData.C85_partial",
    "Verif.FstData.C85_entry",
    "Verif.FstData.C85_plain_witness",
    "Verif.FstData.C85_refused_witness",
    "Verif.FstData.C85_double_witness"
   ],
   "note": "Proved for densities other than 0 and 1 when no compressor refuses the field. With density 0 or 1 the values are coded and never decoded; when a compressor refuses, the flag is lost; type 801 is coded with the wrong element size (witnesses)."
  },
  {
   "property": "C86",
   "status": "partial",
   "theorems": [
    "Verif.FstData.C86_image_partial",
    "Verif.FstData.C86_same",
    "Verif.FstData.C86_compressed",
    "Verif.FstData.C86_read",
    "Verif.FstData.C86_copy",
    "Verif.FstData.C86_packed",
    "Verif.FstData.C86_complex_witness"
   ],
   "note": "Type, width, flag and data words for types 0 to 7 and the compressed ones (whose records are equal); reading again is proved for types 0, 2, 4, 5, 7 (C86_copy) and 1, 6 and 3 of one level (C86_packed). Complex records lose half of their words (witness)."
  },
  {
   "property": "C87",
   "status": "partial",
   "theorems": [
    "Verif.FstData.C87_turbo_partial",
    "Verif.FstData.C87_real16_partial",
    "Verif.FstData.C87_accepted_witness",
    "Verif.FstData.C87_overrun_witness",
    "Verif.FstData.C87_narrow_witness",
    "Verif.FstData.C87_levels_witness"
   ],
   "note": "Type 134: equality with type 6 for every field of one level whose record fits the work field of the reader. Type 129: the precision of type 1 for 16 bits and one level. The code violates the property: a record of type 134 whose compression gains little exceeds the work field (C87_overrun_witness); type 129 with fewer than 16 bits is read with the wrong token width (C87_narrow_witness); levels after the first are lost (C87_levels_witness)."
  },
  {
   "property": "C88",
   "status": "partial",
   "theorems": [
    "Verif.Fnom.C88_units",
    "Verif.Fnom.C88_auto",
    "Verif.Fnom.C88_frame",
    "Verif.Fnom.C88_connected",
    "Verif.Fnom.C88_closed",
    "Verif.Fnom.C88_refused_partial",
    "Verif.Fnom.C88_scratch_witness",
    "Verif.Fnom.C88_at_witness",
    "Verif.Fnom.C88_first_witness",
    "Verif.Fnom.C88_full_witness",
    "Verif.Fnom.C88_digits_witness",
    "Verif.Fnom.C88_stdin_witness"
   ],
   "note": "Everything holds after the first call of c_fnom, except that some refused calls keep the unit: scratch names with a slash and @ names found nowhere. The first call of c_fnom forgets the units opened by c_waopen2; a full table is read past its end; c_waopen2 of a unit above 999 overflows a name; unit 5 cannot be closed after its use as standard input. Each has a witness."
  },
  {
   "property": "C89",
   "status": "partial",
   "theorems": [
    "Verif.Fnom.C89_kind",
    "Verif.Fnom.C89_mode",
    "Verif.Fnom.C89_readonly_partial",
    "Verif.Fnom.C89_name",
    "Verif.Fnom.C89_blank_witness"
   ],
   "note": "R/O and OLD are respected for names that do not end with a blank; with one the file is created and open for writing (C89_blank_witness). Remote files are not modelled."
  },
  {
   "property": "C90",
   "status": "partial",
   "theorems": [
    "Verif.Fnom.C90_slots",
    "Verif.Fnom.C90_free",
    "Verif.Fnom.C90_leak_witness",
    "Verif.Fnom.C90_offset_witness",
    "Verif.Fnom.C90_lost_witness"
   ],
   "note": "The correspondence of slots and open files holds for programs that call c_waclos2 before c_fclos, find the parts of archives they ask for and open files with new descriptors. c_fclos alone leaks the slot, up to reading past the table; the offset of a part of an archive stays in the slot for the next file; a part not found leaks slot and descriptor. Each has a witness."
  },
  {
   "property": "C91",
   "status": "partial",
   "theorems": [
    "Verif.CmcArc.C91_absent",
    "Verif.CmcArc.C91_search_partial",
    "Verif.CmcArc.C91_end_witness",
    "Verif.CmcArc.C91_length_witness",
    "Verif.CmcArc.C91_loop_witness",
    "Verif.CmcArc.C91_name_witness"
   ],
   "note": "The search finds the right part for all well formed archives. The position returned is always the end of the file (C91_end_witness, for every archive and part); the length of parts with 64-bit sizes is wrong (C91_length_witness); damaged archives make the search endless (C91_loop_witness) and long names overflow the buffer (C91_name_witness)."
  },
  {
   "property": "C92",
   "status": "partial",
   "theorems": [
    "Verif.Sq.C92_partial",
    "Verif.Sq.C92_roundtrip",
    "Verif.Sq.C92_count_partial",
    "Verif.Sq.C92_gets",
    "Verif.Sq.C92_read_witness",
    "Verif.Sq.C92_write_witness",
    "Verif.Sq.C92_count_witness"
   ],
   "note": "Holds for systems that move whole words, in any pieces. When a part of a word is moved the buffer pointer is rounded down and words are damaged, in reading and in writing (C92_read_witness, C92_write_witness); c_sqputw returns the size of the last piece (C92_count_witness)."
  },
  {
   "property": "C93",
   "status": "partial",
   "theorems": [
    "Verif.Da.C93_partial",
    "Verif.Da.C93_room",
    "Verif.Da.C93_after_witness",
    "Verif.Da.C93_zero_witness",
    "Verif.Da.C93_full_witness"
   ],
   "note": "Holds for all sequences of calls for units other than 0 and other than the value of the word after the table. That word is compared with the unit (C93_after_witness); unit 0 is refused (C93_zero_witness); the 1025th pending transfer writes after the table (C93_full_witness)."
  },
  {
   "property": "C94",
   "status": "partial",
   "theorems": [
    "Verif.FstEdit.C94_descriptors_partial",
    "Verif.FstEdit.C94_file_partial",
    "Verif.FstEdit.C94_range_witness",
    "Verif.FstEdit.C94_ignored_witness",
    "Verif.FstEdit.C94_page_witness",
    "Verif.FstEdit.C94_page",
    "Verif.FstEdit.C94_deleted_witness",
    "Verif.FstEdit.C94_readonly_witness",
    "Verif.FstEdit.C94_old"
   ],
   "note": "Holds for values within the width of their fields, of a record that exists, and of the directory only. Values are cut without notice (C94_range_witness); ni, nj, nk and datyp are taken and ignored (C94_ignored_witness); the page after the last is accepted (C94_page_witness); deleted records and files opened for reading are edited (C94_deleted_witness, C94_readonly_witness). The copy of the descriptors in front of the data keeps the old values."
  },
  {
   "property": "C95",
   "status": "proved",
   "theorems": [
    "Verif.FstEdit.C95_last",
    "Verif.FstEdit.C95_masked_search",
    "Verif.FstEdit.C95_get",
    "Verif.FstEdit.C95_reset",
    "Verif.FstEdit.C95_mode_witness"
   ],
   "note": "As in C18 the label is compared only when one of its first ten characters is given. The documentation says that a mode of 2 sets the masks; the code returns them for every mode other than 0 (C95_mode_witness)."
  },
  {
   "property": "C96",
   "status": "partial",
   "theorems": [
    "Verif.FstIp.C96_first",
    "Verif.FstIp.C96_accept_partial",
    "Verif.FstIp.C96_defined",
    "Verif.FstIp.C96_all",
    "Verif.FstIp.C96_val",
    "Verif.FstIp.C96_room",
    "Verif.FstIp.C96_ip2_witness",
    "Verif.FstIp.C96_second_witness",
    "Verif.FstIp.C96_invalid_witness",
    "Verif.FstIp.C96_overflow_witness",
    "Verif.FstIp.C96_sui_witness",
    "Verif.FstIp.C96_stale_witness"
   ],
   "note": "The first record that passes is found in all linked files (C96_first), and ip1 in either coding is found (C96_all). Tables of ip2 are tested only together with ip1, those of ip3 only with both (C96_ip2_witness); only the first level queued can be searched (C96_second_witness); for a level out of range any record is found (C96_invalid_witness); 26 levels overflow the table (C96_room); far exponents overflow 64 bits (C96_overflow_witness); fstsui goes on with one coding only (C96_sui_witness); a refused search leaves the tables set (C96_stale_witness)."
  },
  {
   "property": "C97",
   "status": "partial",
   "theorems": [
    "Verif.BurpHdr.C97_header_partial",
    "Verif.BurpHdr.C97_update",
    "Verif.BurpHdr.C97_file",
    "Verif.BurpHdr.C97_parameters",
    "Verif.BurpHdr.C97_century_witness",
    "Verif.BurpHdr.C97_dates_witness",
    "Verif.BurpHdr.C97_width_witness"
   ],
   "note": "Names of letters, digits and usual signs come back in capitals and padded to nine. Dates of the 1900s come back without century unless ENFORC8 is on (C97_century_witness); dates before 1900 or after March 2700 come back as others (C97_dates_witness); values and block counts that do not fit are cut (C97_width_witness)."
  },
  {
   "property": "C98",
   "status": "partial",
   "theorems": [
    "Verif.BurpHdr.C98_report_partial",
    "Verif.BurpHdr.C98_sweep_partial",
    "Verif.BurpHdr.C98_minutes_witness",
    "Verif.BurpHdr.C98_star_witness"
   ],
   "note": "By name, type, place, day and hour; the minutes of the time asked for are ignored (C98_minutes_witness). A name of one star is not wild (C98_star_witness)."
  },
  {
   "property": "C99",
   "status": "partial",
   "theorems": [
    "Verif.Wkoffit.C99_size",
    "Verif.Wkoffit.C99_closed_partial",
    "Verif.Wkoffit.C99_crash",
    "Verif.Wkoffit.C99_empty_witness"
   ],
   "note": "Fewer than 10^9 operations in the history; a file whose size is a multiple of 4 GiB is reported as empty (C99_empty_witness)."
  },
  {
   "property": "C100",
   "status": "partial",
   "theorems": [
    "Verif.Wkoffit.C100_file_only_partial",
    "Verif.Wkoffit.C100_fortran_partial",
    "Verif.Wkoffit.C100_short_witness",
    "Verif.Wkoffit.C100_marker_witness",
    "Verif.Wkoffit.C100_grib_witness"
   ],
   "note": "Files of 124 bytes or more whose first word does not point outside; for others the answer depends on uninitialised memory (witnesses). The image formats tried last are a function of the file left open."
  },
  {
   "property": "C101",
   "status": "proved",
   "theorems": [
    "Verif.XdfSeq.C101_written",
    "Verif.XdfSeq.C101_read_back",
    "Verif.XdfSeq.C101_rewound",
    "Verif.XdfSeq.C101_empty_witness"
   ],
   "note": "Record types 1 to 111, lengths below 2^25 - 130 words. Beyond 2^23 words the record is followed by padding (less than 128 words of the caller's memory), which the theorem bounds. An empty file has no end mark (C101_empty_witness)."
  },
  {
   "property": "C102",
   "status": "partial",
   "theorems": [
    "Verif.XdfSeq.C102_moves_partial",
    "Verif.XdfSeq.C102_clamp",
    "Verif.XdfSeq.C102_1989_witness",
    "Verif.XdfSeq.C102_created_witness"
   ],
   "note": "Full behaviour in files opened again. In the session that created the file skips from the start fail, and on files of 1989 c_fstskp never moves (witnesses)."
  },
  {
   "property": "C103",
   "status": "partial",
   "theorems": [
    "Verif.XdfSeq.C103_append_partial",
    "Verif.XdfSeq.C103_mark_witness"
   ],
   "note": "Holds for the records before the first mark; c_fstapp stops at that mark, so later logical files are replaced (witness)."
  },
  {
   "property": "C104",
   "status": "partial",
   "theorems": [
    "Verif.XdfSeq.C104_delete_partial",
    "Verif.XdfSeq.C104_lost_witness"
   ],
   "note": "Records before the deleted one are found; type 255 ends every search, so the records after it are lost (witness)."
  },
  {
   "property": "C105",
   "status": "proved",
   "theorems": [
    "Verif.EzProj.C105_defined",
    "Verif.EzProj.C105_range",
    "Verif.EzProj.C105_distance",
    "Verif.EzProj.C105_there",
    "Verif.EzProj.C105_back",
    "Verif.EzProj.C105_anchor",
    "Verif.EzProj.C105_equal_witness"
   ],
   "note": "In exact real arithmetic; rounding is not modelled. Equal or opposite defining points divide by zero (C105_equal_witness). At the poles the longitude is not determined."
  },
  {
   "property": "C106",
   "status": "proved",
   "theorems": [
    "Verif.EzProj.C106_ll",
    "Verif.EzProj.C106_xy",
    "Verif.EzProj.C106_place",
    "Verif.EzProj.C106_range",
    "Verif.EzProj.C106_range_witness",
    "Verif.EzProj.C106_pole_witness"
   ],
   "note": "In exact real arithmetic; rounding is not modelled. Orientations outside (-180, 180] can give longitudes outside [0, 360) (C106_range_witness)."
  },
  {
   "property": "C107",
   "status": "partial",
   "theorems": [
    "Verif.EzProj.C107_there",
    "Verif.EzProj.C107_back",
    "Verif.EzProj.C107_from",
    "Verif.EzProj.C107_rotated_partial",
    "Verif.EzProj.C107_E_witness"
   ],
   "note": "In exact real arithmetic. Fails for grids of type E: the call in gduvfwd.c:47 has its arguments exchanged, transforms uninitialised memory and overwrites the caller's coordinates (C107_E_witness). The type '!' is not modelled."
  },
  {
   "property": "C108",
   "status": "partial",
   "theorems": [
    "Verif.EzLocate.C108_ring",
    "Verif.EzLocate.C108_ring_inside",
    "Verif.EzLocate.C108_ring_back",
    "Verif.EzLocate.C108_L_partial",
    "Verif.EzLocate.C108_L_back",
    "Verif.EzLocate.C108_L_witness",
    "Verif.EzLocate.C108_Z_partial",
    "Verif.EzLocate.C108_Z_back",
    "Verif.EzLocate.C108_Z_flip_witness",
    "Verif.EzLocate.C108_Z_cross_witness",
    "Verif.EzLocate.C108_G_partial",
    "Verif.EzLocate.C108_G_north_witness",
    "Verif.EzLocate.C108_G_south_flip_witness"
   ],
   "note": "In exact arithmetic. Holds for A and B, L with an origin not negative, axes within one range of longitudes, and Gaussian grids over the globe or over the south. Fails for ig2 = 1 with axes, for axes that cross 0 and 180 degrees, for a negative ig4, and for Gaussian hemispheres north or with rows from the north (witnesses). Types E, N, S, '!', rotated references and yin-yang pairs are not in this model."
  },
  {
   "property": "C109",
   "status": "partial",
   "theorems": [
    "Verif.EzLocate.C109_partial",
    "Verif.EzLocate.C109_A_witness",
    "Verif.EzLocate.C109_Z_witness",
    "Verif.EzLocate.C109_G_north_witness",
    "Verif.EzLocate.C109_L_witness"
   ],
   "note": "In exact arithmetic. Fails for A and B with rows from the north, for axes with ig2 = 1, for northern Gaussian grids and for a negative ig4 (witnesses)."
  },
  {
   "property": "C110",
   "status": "partial",
   "theorems": [
    "Verif.EzLocate.C110_turns",
    "Verif.EzLocate.C110_partial",
    "Verif.EzLocate.C110_witness",
    "Verif.EzLocate.C110_gdll_witness"
   ],
   "note": "Longitudes change only by whole turns. Positions are independent for sources that leave the longitude as it is. An L source with its origin east of the point moves the point 360 columns away in later sources (C110_witness)."
  },
  {
   "property": "C111",
   "status": "proved",
   "theorems": [
    "Verif.EzZones.C111_latitude",
    "Verif.EzZones.C111_mirror"
   ],
   "note": "The opposite latitude is stated with the model of gdllfxy for A and B, and by row numbers (mirror) for A, B and G."
  },
  {
   "property": "C112",
   "status": "proved",
   "theorems": [
    "Verif.EzZones.C112_points",
    "Verif.EzZones.C112_value",
    "Verif.EzZones.C112_grids",
    "Verif.EzZones.C112_linear"
   ],
   "note": "In exact arithmetic, with the option polar_correction on: without it ezsint does not call these functions and no extrapolation option has any effect."
  },
  {
   "property": "C113",
   "status": "partial",
   "theorems": [
    "Verif.EzZones.C113_mean",
    "Verif.EzZones.C113_weighted",
    "Verif.EzZones.C113_points",
    "Verif.EzZones.C113_pole_rows",
    "Verif.EzZones.C113_linear_north",
    "Verif.EzZones.C113_linear_beyond",
    "Verif.EzZones.C113_linear_south",
    "Verif.EzZones.C113_nearest_north",
    "Verif.EzZones.C113_cubic_regular",
    "Verif.EzZones.C113_cubic_irregular",
    "Verif.EzZones.C113_average_witness",
    "Verif.EzZones.C113_jump_witness",
    "Verif.EzZones.C113_repeated_witness",
    "Verif.EzZones.C113_north_latitudes_witness",
    "Verif.EzZones.C113_truncation_witness",
    "Verif.EzZones.C113_band_witness",
    "Verif.EzZones.C113_columns_partial",
    "Verif.EzZones.C113_zonal_north",
    "Verif.EzZones.C113_zonal_south",
    "Verif.EzZones.C113_nearest_south",
    "Verif.EzZones.C113_pole_row_witness"
   ],
   "note": "In exact arithmetic. Values agree with plain interpolation on the rows of the grid and stay within the last row beyond it, but the place used for the pole is a whole row beyond the last row, so the value jumps at the pole of an A grid; the averages leave points near the poles undefined; further cases in the witnesses."
  },
  {
   "property": "C114",
   "status": "partial",
   "theorems": [
    "Verif.EzOpt.C114_partial",
    "Verif.EzOpt.C114_others",
    "Verif.EzOpt.C114_accepts",
    "Verif.EzOpt.C114_witness",
    "Verif.EzOpt.C114_numbers",
    "Verif.EzOpt.C114_numbers_witness"
   ],
   "note": "The averages are accepted but read back as error; neutral is stored as the degree of interpolation of the moment (with average, as maximum); correction_polaire, use_1sousgrille and missing_gridpt_distance can be set but not read (witnesses). Names of 32 characters or more overflow a buffer."
  },
  {
   "property": "C115",
   "status": "partial",
   "theorems": [
    "Verif.EzYinYang.C115_mask",
    "Verif.EzYinYang.C115_partial",
    "Verif.EzYinYang.C115_back_partial",
    "Verif.EzYinYang.C115_value_partial",
    "Verif.EzYinYang.C115_choice",
    "Verif.EzYinYang.C115_first_witness",
    "Verif.EzYinYang.C115_last_witness"
   ],
   "note": "For masks that leave out the first row and column. The limits of the mask count from 0 and positions from 1: with a mask from the first column on, points up to one cell outside yin are taken from yin (witness)."
  },
  {
   "property": "C116",
   "status": "partial",
   "theorems": [
    "Verif.EzYinYang.C116_partial",
    "Verif.EzYinYang.C116_degrees",
    "Verif.EzYinYang.C116_average_witness",
    "Verif.EzYinYang.C116_value_witness"
   ],
   "note": "The averages are not put back (nearest stays), and the extrapolation value stays 1 unless the degree was value (witnesses)."
  },
  {
   "property": "C117",
   "status": "partial",
   "theorems": [
    "Verif.EzYinYang.C117_mask",
    "Verif.EzYinYang.C117_partial",
    "Verif.EzYinYang.C117_pairs",
    "Verif.EzYinYang.C117_own",
    "Verif.EzYinYang.C117_one",
    "Verif.EzYinYang.C117_to_pair",
    "Verif.EzYinYang.C117_polar_witness",
    "Verif.EzYinYang.C117_same_witness"
   ],
   "note": "Without the polar correction the mask is 0 everywhere and yang is never used; from a pair to itself only the half of yin is copied (witnesses)."
  },
  {
   "property": "C118",
   "status": "partial",
   "theorems": [
    "Verif.CCard.C118",
    "Verif.CCard.C118_lead",
    "Verif.CCard.C118_keys",
    "Verif.CCard.C118_keep",
    "Verif.CCard.C118_overflow_witness",
    "Verif.CCard.C118_dashes_witness",
    "Verif.CCard.C118_npos_witness"
   ],
   "note": "For values that fit. Too many values make an endless loop or reads beyond the table; -- without keys called - reads before it; the number of positional arguments starts from an uninitialised variable (witnesses)."
  },
  {
   "property": "C119",
   "status": "partial",
   "theorems": [
    "Verif.Ibm32.C119_partial",
    "Verif.Ibm32.C119_array",
    "Verif.Ibm32.C119_zero_witness"
   ],
   "note": "For mantissas that are not zero. Zeros with exponents from 33 to 96 are left as they are and are then not zero (witness)."
  },
  {
   "property": "C120",
   "status": "partial",
   "theorems": [
    "Verif.FCard.C120_partial",
    "Verif.FCard.C120_dashes",
    "Verif.FCard.C120_dashes_witness",
    "Verif.FCard.C120_first_witness"
   ],
   "note": "Without --, and positional arguments only with keys called -. The argument -- also counts as a key called - and wipes out the first positional argument; without keys called - an argument that belongs to no key goes to the first key (witnesses)."
  },
  {
   "property": "C121",
   "status": "partial",
   "theorems": [
    "Verif.EzMask.C121_partial",
    "Verif.EzMask.C121_outside",
    "Verif.EzMask.C121_edge_witness",
    "Verif.EzMask.C121_nearest_witness"
   ],
   "note": "Inside the grid. On the last row or column the mask is read outside the array; the zone of missing nearest points is never given (witnesses)."
  },
  {
   "property": "C122",
   "status": "partial",
   "theorems": [
    "Verif.EzMask.C122_nearest",
    "Verif.EzMask.C122_outside",
    "Verif.EzMask.C122_linear_partial",
    "Verif.EzMask.C122_last_witness",
    "Verif.EzMask.C122_corner_witness"
   ],
   "note": "With linear, the last row and column of the output are not looked at, nor the corner ix, iy unless it is the nearest point (witnesses)."
  },
  {
   "property": "C123",
   "status": "partial",
   "theorems": [
    "Verif.EzMask.C123_keep",
    "Verif.EzMask.C123_minimum",
    "Verif.EzMask.C123_lorenzo",
    "Verif.EzMask.C123_predict",
    "Verif.EzMask.C123_row_partial",
    "Verif.EzMask.C123_row_witness"
   ],
   "note": "With the third method, rows whose only value is in the last column are not filled (witness)."
  },
  {
   "property": "C124",
   "status": "proved",
   "theorems": [
    "Verif.EzCloud.C124"
   ],
   "note": "For thresholds below 1784 degrees; the default is 10."
  },
  {
   "property": "C125",
   "status": "partial",
   "theorems": [
    "Verif.EzCloud.C125_partial",
    "Verif.EzCloud.C125_range_partial",
    "Verif.EzCloud.C125_column_witness",
    "Verif.EzCloud.C125_initial_witness"
   ],
   "note": "Without the last column, whose points take the weights of the next row (witness); masked points may stay unset (witness)."
  },
  {
   "property": "C126",
   "status": "partial",
   "theorems": [
    "Verif.EzCloud.C126_triangle",
    "Verif.EzCloud.C126_quad",
    "Verif.EzCloud.C126_uv_partial",
    "Verif.EzCloud.C126_parallelogram_partial",
    "Verif.EzCloud.C126_small_witness"
   ],
   "note": "Places below 0.01 are changed on purpose, but the second one is replaced by the first (witness)."
  },
  {
   "property": "C127",
   "status": "partial",
   "theorems": [
    "Verif.EzAvg.C127_partial",
    "Verif.EzAvg.C127_range_partial",
    "Verif.EzAvg.C127_constant",
    "Verif.EzAvg.C127_edges",
    "Verif.EzAvg.C127_first_witness",
    "Verif.EzAvg.C127_last_witness",
    "Verif.EzAvg.C127_negative_witness",
    "Verif.EzAvg.C127_outside_witness"
   ],
   "note": "Rows other than the first and the last, cells that begin at 0 or later; the first and the last row and other cells are wrong (witnesses)."
  },
  {
   "property": "C128",
   "status": "partial",
   "theorems": [
    "Verif.Readlx.C128_partial",
    "Verif.Readlx.C128_balanced",
    "Verif.Readlx.C128_power_witness",
    "Verif.Readlx.C128_sign_witness",
    "Verif.Readlx.C128_postfix_witness",
    "Verif.Readlx.C128_real_witness",
    "Verif.Readlx.C128_paren_witness"
   ],
   "note": "Expressions of integers without NOT; powers are taken from left to right, signs before powers, and reals are computed as integers (witnesses)."
  },
  {
   "property": "C129",
   "status": "partial",
   "theorems": [
    "Verif.Readlx.C129_lex",
    "Verif.Readlx.C129_partial",
    "Verif.Readlx.C129_real_witness",
    "Verif.Readlx.C129_quote_witness",
    "Verif.Readlx.C129_octal_witness"
   ],
   "note": "Expressions of integers; texts in quotes are taken for operators (witness). Names of variables and continuation lines are not modelled."
  },
  {
   "property": "C130",
   "status": "proved",
   "theorems": [
    "Verif.Tridiag.C130",
    "Verif.Tridiag.C130_total",
    "Verif.Tridiag.C130_unique",
    "Verif.Tridiag.C130_condition_witness",
    "Verif.Tridiag.C130_last_witness"
   ],
   "note": "Without rounding. The condition of the comments is not enough and C(M) is changed (witnesses)."
  },
  {
   "property": "C131",
   "status": "proved",
   "theorems": [
    "Verif.Spline.C131",
    "Verif.Spline.C131_outside_witness"
   ],
   "note": "Without rounding, places in order and between the first and the last point, as the comments ask."
  },
  {
   "property": "C132",
   "status": "partial",
   "theorems": [
    "Verif.Spline.C132",
    "Verif.Spline.C132_ends",
    "Verif.Spline.C132_equal_partial",
    "Verif.Spline.C132_order_witness"
   ],
   "note": "FD1 and FDM are exact for cubics; D1 and DN only for parabolas, not to the order claimed (witness)."
  },
  {
   "property": "C133",
   "status": "proved",
   "theorems": [
    "Verif.Spline.C133",
    "Verif.Spline.C133_points",
    "Verif.Spline.C133_outside_witness"
   ],
   "note": "Without rounding; D1INT2 needs places in order that are not beyond the last point."
  },
  {
   "property": "C134",
   "status": "partial",
   "theorems": [
    "Verif.UserLock.C134_partial",
    "Verif.UserLock.C134_grant",
    "Verif.UserLock.C134_release",
    "Verif.UserLock.C134_short",
    "Verif.UserLock.C134_race_witness",
    "Verif.UserLock.C134_depth_witness"
   ],
   "note": "Holds if no other thread comes between the reads and the write, and up to a depth of 127; else two threads hold the lock (witnesses)."
  },
  {
   "property": "C135",
   "status": "partial",
   "theorems": [
    "Verif.NrRand.C135_range_partial",
    "Verif.NrRand.C135_range_witness",
    "Verif.NrRand.C135_repeat",
    "Verif.NrRand.C135_ignored",
    "Verif.NrRand.C135_recurrence"
   ],
   "note": "The range holds for seeds up to 161803398 and not for others (witness)."
  },
  {
   "property": "C136",
   "status": "partial",
   "theorems": [
    "Verif.Stats.C136",
    "Verif.Stats.C136_refused",
    "Verif.Stats.C136_window_witness"
   ],
   "note": "Without rounding. Windows that begin before the arrays are not refused (witness)."
  },
  {
   "property": "C137",
   "status": "proved",
   "theorems": [
    "Verif.Stats.C137",
    "Verif.Stats.C137_missing"
   ],
   "note": "Without rounding, for windows inside the arrays."
  },
  {
   "property": "C138",
   "status": "proved",
   "theorems": [
    "Verif.Stats.C138"
   ],
   "note": "Without rounding, for windows inside the arrays."
  },
  {
   "property": "C139",
   "status": "partial",
   "theorems": [
    "Verif.LinkEdit.C139_partial",
    "Verif.LinkEdit.C139_read_partial",
    "Verif.LinkEdit.C139_overwrite",
    "Verif.LinkEdit.C139_overwrite_witness",
    "Verif.LinkEdit.C139_delete",
    "Verif.LinkEdit.C139_growth",
    "Verif.LinkEdit.C139_special"
   ],
   "note": "Holds for handles to pages of the file itself. Through a handle to a linked file, deletion falsifies both counts and may not be saved, rewriting destroys data of the other file, for all such handles."
  },
  {
   "property": "C140",
   "status": "partial",
   "theorems": [
    "Verif.Field.C140",
    "Verif.Field.C140_outside",
    "Verif.Field.C140_exact",
    "Verif.Field.C140_point",
    "Verif.Field.C140_bounds",
    "Verif.Field.C140_section",
    "Verif.Field.C140_begin",
    "Verif.Field.C140_column_witness",
    "Verif.Field.C140_one_witness"
   ],
   "note": "Without rounding. A field of one column or row is read outside of its bounds, a section of one point divides by zero (witnesses)."
  },
  {
   "property": "C141",
   "status": "proved",
   "theorems": [
    "Verif.Field.C141",
    "Verif.Field.C141_points",
    "Verif.Field.C141_same"
   ],
   "note": "Without rounding, for points that differ; else there is a division by zero."
  },
  {
   "property": "C142",
   "status": "proved",
   "theorems": [
    "Verif.Field.C142_rows",
    "Verif.Field.C142_twice",
    "Verif.Field.C142_product",
    "Verif.Field.C142_halves",
    "Verif.Field.C142_bytes",
    "Verif.Field.C142_again"
   ],
   "note": "The product without rounding, and if the elements of the result do not meet."
  },
  {
   "property": "C143",
   "status": "partial",
   "theorems": [
    "Verif.GribTable.C143_partial",
    "Verif.GribTable.C143_absent",
    "Verif.GribTable.C143_large",
    "Verif.GribTable.C143_centre_witness",
    "Verif.GribTable.C143_ig3_witness"
   ],
   "note": "Holds if the first record with the code is that of the centre asked for; else the record of another centre is returned (witness)."
  },
  {
   "property": "C144",
   "status": "proved",
   "theorems": [
    "Verif.MtxInv.C144",
    "Verif.MtxInv.C144_singular",
    "Verif.MtxInv.C144_stops_iff"
   ],
   "note": "Without rounding."
  },
  {
   "property": "C145",
   "status": "partial",
   "theorems": [
    "Verif.Dmms.C145",
    "Verif.Dmms.C145_room",
    "Verif.Dmms.C145_room_witness",
    "Verif.Dmms.C145_hpcheck_last_only",
    "Verif.Dmms.C145_overrun_witness",
    "Verif.Dmms.C145_free_empties",
    "Verif.Dmms.C145_hpcheck_first_witness",
    "Verif.Dmms.C145_refuse",
    "Verif.Dmms.C145_initmem",
    "Verif.Dmms.C145_bkcheck",
    "Verif.Dmms.C145_ca_place",
    "Verif.Dmms.C145_ca_free",
    "Verif.Dmms.C145_ca_negative"
   ],
   "note": "Blocks of hpalloc stay intact and can be freed. hpcheck sees the last block only; blocks of ca_alloc can be freed exactly if no aligned address is 48 bytes behind their beginning; INITMEM destroys the guards of blocks of four items or more; after a refused allocation every call stops the program."
  },
  {
   "property": "C146",
   "status": "partial",
   "theorems": [
    "Verif.ApplVar.C146",
    "Verif.ApplVar.C146_one_past",
    "Verif.ApplVar.C146_too_long",
    "Verif.ApplVar.C146_prefix_witness",
    "Verif.ApplVar.C146_case_witness",
    "Verif.ApplVar.C146_junk_witness",
    "Verif.ApplVar.C146_trim",
    "Verif.ApplVar.C146_blanks"
   ],
   "note": "Holds for names none of which is the beginning of another, at most 1024 of them. Reading writes one place behind the caller's variable, and before it if the value is too long."
  },
  {
   "property": "C147",
   "status": "partial",
   "theorems": [
    "Verif.Qrbnbdt.C147",
    "Verif.Qrbnbdt.C147_least",
    "Verif.Qrbnbdt.C147_largest_witness",
    "Verif.Qrbnbdt.C147_fault_witness"
   ],
   "note": "Holds for absolute values below 2**31-1 and at most 32 bits; the largest value gives an error with the number of bits unchanged."
  },
  {
   "property": "C148",
   "status": "partial",
   "theorems": [
    "Verif.EnvCrack.C148",
    "Verif.EnvCrack.C148_second",
    "Verif.EnvCrack.C148_index_witness",
    "Verif.EnvCrack.C148_reversed_witness",
    "Verif.EnvCrack.C148_fault_witness",
    "Verif.EnvCrack.C148_blank"
   ],
   "note": "Holds for lists of words, in brackets if there are two or more. A single value in brackets gets a wrong place, and the call cuts the environment after its first variable."
  },
  {
   "property": "C149",
   "status": "partial",
   "theorems": [
    "Verif.FStr.C149_to_fortran",
    "Verif.FStr.C149_to_c",
    "Verif.FStr.C149_to_c_keep",
    "Verif.FStr.C149_round_trip",
    "Verif.FStr.C149_array",
    "Verif.FStr.C149_length",
    "Verif.FStr.C149_lower",
    "Verif.FStr.C149_upper",
    "Verif.FStr.C149_case",
    "Verif.FStr.C149_getenvc",
    "Verif.FStr.C149_byte_place",
    "Verif.FStr.C149_bytes_frame",
    "Verif.FStr.C149_bytes",
    "Verif.FStr.C149_blank_witness",
    "Verif.FStr.C149_length_zero_witness",
    "Verif.FStr.C149_nul"
   ],
   "note": "Holds for strings which are not all blank. Removal of the blanks of an all blank string leaves the buffer on its left side, and the length of a string of no characters reads outside."
  },
  {
   "property": "C150",
   "status": "proved",
   "theorems": [
    "Verif.FieldMath.C150_squares",
    "Verif.FieldMath.C150_squares_frame",
    "Verif.FieldMath.C150_map_scale",
    "Verif.FieldMath.C150_coriolis",
    "Verif.FieldMath.C150_latitude"
   ],
   "note": "In exact arithmetic."
  },
  {
   "property": "C151",
   "status": "partial",
   "theorems": [
    "Verif.Idxes.C151_columns",
    "Verif.Idxes.C151_rows",
    "Verif.Idxes.C151_south_pole_witness",
    "Verif.Idxes.C151_north_message_witness",
    "Verif.Idxes.C151_message"
   ],
   "note": "Holds but for a northern field and a place less than two rows from the south pole, where the row is 0."
  },
  {
   "property": "C152",
   "status": "partial",
   "theorems": [
    "Verif.Fread.C152_write",
    "Verif.Fread.C152_round_trip",
    "Verif.Fread.C152_refused",
    "Verif.Fread.C152_short_witness",
    "Verif.Fread.C152_large_witness"
   ],
   "note": "Holds below 4 gigabytes in one call and where the file has all that is asked for. After a short read bytes which were not read are exchanged; from 2^31 numbers on none are."
  },
  {
   "property": "C153",
   "status": "partial",
   "theorems": [
    "Verif.Ftn2c.C153_copy",
    "Verif.Ftn2c.C153_arrays",
    "Verif.Ftn2c.C153_blank_witness"
   ],
   "note": "Holds for strings which are not blank; a blank or empty string makes the copy read before its beginning."
  },
  {
   "property": "C154",
   "status": "partial",
   "theorems": [
    "Verif.Ftn2c.C154_round_trip",
    "Verif.Ftn2c.C154_cut_witness"
   ],
   "note": "Holds for files which fit; a larger file is cut without a sign of it, against what the comment of the routine says."
  },
  {
   "property": "C155",
   "status": "partial",
   "theorems": [
    "Verif.Key84.C155_igaip",
    "Verif.Key84.C155_ipaig",
    "Verif.Key84.C155_ig_roundtrip",
    "Verif.Key84.C155_ip_roundtrip",
    "Verif.Key84.C155_def",
    "Verif.Key84.C155_unique",
    "Verif.Key84.C155_fortran_witness",
    "Verif.Key84.C155_fortran_ig1"
   ],
   "note": "Holds for the C routines. The Fortran one passes the address of ip1 for ig1: ig1 is never stored and ip1 is overwritten."
  },
  {
   "property": "C156",
   "status": "partial",
   "theorems": [
    "Verif.ProgName.C156",
    "Verif.ProgName.C156_fits",
    "Verif.ProgName.C156_accept",
    "Verif.ProgName.C156_cut_witness",
    "Verif.ProgName.C156_lost_witness"
   ],
   "note": "Holds for results of 35 characters or more and units which are no digits. In 16 characters, which are allowed, the number is cut; minutes without seconds are dropped."
  },
  {
   "property": "C157",
   "status": "partial",
   "theorems": [
    "Verif.Constnt.C157",
    "Verif.Constnt.C157_names",
    "Verif.Constnt.C157_first",
    "Verif.Constnt.C157_long_witness",
    "Verif.Constnt.C157_list_witness",
    "Verif.Constnt.C157_blank_witness"
   ],
   "note": "Holds for files whose first name is not blank."
  },
  {
   "property": "C158",
   "status": "proved",
   "theorems": [
    "Verif.Spectral.C158_hemisphere",
    "Verif.Spectral.C158_globe",
    "Verif.Spectral.C158_stop",
    "Verif.Spectral.C158_separation",
    "Verif.Spectral.C158_spaf",
    "Verif.Spectral.C158_fasp",
    "Verif.Spectral.C158_roundtrip"
   ],
   "note": "In exact arithmetic; orthonormality of the values is a hypothesis."
  },
  {
   "property": "C159",
   "status": "partial",
   "theorems": [
    "Verif.Legendre.C159_epsilon",
    "Verif.Legendre.C159_rows",
    "Verif.Legendre.C159_recurrence",
    "Verif.Legendre.C159_derivative",
    "Verif.Legendre.C159_single_witness"
   ],
   "note": "In exact arithmetic, for rows of two values or more but the last; rows of one value are all stored at the first place."
  },
  {
   "property": "C160",
   "status": "partial",
   "theorems": [
    "Verif.CalcDist.C160_angle",
    "Verif.CalcDist.C160_same",
    "Verif.CalcDist.C160_metric",
    "Verif.CalcDist.C160_area_nonneg",
    "Verif.CalcDist.C160_area_witness"
   ],
   "note": "In exact arithmetic. The area of the first routine is wrong for obtuse angles (witness); that the second gives the area of a triangle is not proved."
  },
  {
   "property": "C161",
   "status": "partial",
   "theorems": [
    "Verif.BurpPrml.C161_table",
    "Verif.BurpPrml.C161_history_partial",
    "Verif.BurpPrml.C161_beyond_witness",
    "Verif.BurpPrml.C161_refused"
   ],
   "note": "Holds from the first block on, or if no more columns are asked for than blocks follow. Histories are those of C49."
  },
  {
   "property": "C162",
   "status": "proved",
   "theorems": [
    "Verif.EwFdr.C162_cells",
    "Verif.EwFdr.C162_refused",
    "Verif.EwFdr.C162_derivative"
   ],
   "note": "In exact arithmetic."
  },
  {
   "property": "C163",
   "status": "partial",
   "theorems": [
    "Verif.Xtrap.C163_nearest",
    "Verif.Xtrap.C163_extremes",
    "Verif.Xtrap.C163_others",
    "Verif.Xtrap.C163_last_witness"
   ],
   "note": "In exact arithmetic. Points less than a step behind the last column or row are not treated as outside (witness)."
  },
  {
   "property": "C164",
   "status": "partial",
   "theorems": [
    "Verif.FstCvt.C164",
    "Verif.FstCvt.C164_words",
    "Verif.FstCvt.C164_lengths",
    "Verif.FstCvt.C164_label_witness"
   ],
   "note": "Holds without the character 255, for the lengths which the writes accept (C164_lengths)."
  },
  {
   "property": "C165",
   "status": "proved",
   "theorems": [
    "Verif.Qrbsct.C165_table",
    "Verif.Qrbsct.C165_small",
    "Verif.Qrbsct.C165_beyond_witness"
   ],
   "note": "Numbers on the lines are taken as already read."
  },
  {
   "property": "C166",
   "status": "partial",
   "theorems": [
    "Verif.PoleWind.C166",
    "Verif.PoleWind.C166_step_witness"
   ],
   "note": "In exact arithmetic, for NPSPIN with the right step of longitude. VGLO and VWNH call it before the step is set (witness)."
  },
  {
   "property": "C167",
   "status": "partial",
   "theorems": [
    "Verif.OrdLeg.C167",
    "Verif.OrdLeg.C167_zero_witness"
   ],
   "note": "In exact arithmetic, for wave numbers from 1 on; for 0 the code uses a variable which is not set (witness)."
  },
  {
   "property": "C168",
   "status": "proved",
   "theorems": [
    "Verif.Gauss.C168_slope",
    "Verif.Gauss.C168_newton",
    "Verif.Gauss.C168_root",
    "Verif.Gauss.C168_weight",
    "Verif.Gauss.C168_first",
    "Verif.Gauss.C168_others"
   ],
   "note": "In exact arithmetic. That the loop ends, and that the first values lead to different roots, is not claimed."
  },
  {
   "property": "C169",
   "status": "partial",
   "theorems": [
    "Verif.HybRef.C169_ends",
    "Verif.HybRef.C169_increasing",
    "Verif.HybRef.C169_increasing_witness",
    "Verif.HybRef.C169_agree",
    "Verif.HybRef.C169_older",
    "Verif.HybRef.C169_older_witness",
    "Verif.HybRef.C169_code",
    "Verif.HybRef.C169_single_witness",
    "Verif.HybRef.C169_file",
    "Verif.HybRef.C169_eta",
    "Verif.HybRef.C169_kind5",
    "Verif.HybRef.C169_errors",
    "Verif.HybRef.C169_accept",
    "Verif.HybRef.C169_size_witness",
    "Verif.HybRef.C169_levels_witness",
    "Verif.HybRef.C169_points_witness",
    "Verif.HybRef.C169_units_witness",
    "Verif.HybRef.C169_staggered_witness"
   ],
   "note": "In exact arithmetic; hyb2pres for one level only: it overwrites its own dimensions when it looks for the records, so that with more levels the rest is not written (witness); kind 2 and kind 5 do not give the units asked for (witnesses)."
  },
  {
   "property": "C170",
   "status": "partial",
   "theorems": [
    "Verif.DGauss.C170_delta",
    "Verif.DGauss.C170_refine",
    "Verif.DGauss.C170_kept",
    "Verif.DGauss.C170_all",
    "Verif.DGauss.C170_roots",
    "Verif.DGauss.C170_south_witness",
    "Verif.DGauss.C170_lat",
    "Verif.DGauss.C170_order",
    "Verif.DGauss.C170_symmetric"
   ],
   "note": "In exact arithmetic, for the globe and the north; in the south with an odd order the loop refines other positions than those which were set (witness). That the loop ends, and that the first values lead to different roots, is not claimed."
  },
  {
   "property": "C171",
   "status": "proved",
   "theorems": [
    "Verif.SurfExtrap.C171_surface",
    "Verif.SurfExtrap.C171_wind"
   ],
   "note": "In exact arithmetic, after the tests of the numbers of arrays; the callback is any value."
  },
  {
   "property": "C172",
   "status": "proved",
   "theorems": [
    "Verif.Sll.C172_bicubic",
    "Verif.Sll.C172_grid",
    "Verif.Sll.C172_bilinear",
    "Verif.Sll.C172_nearest",
    "Verif.Sll.C172_sll",
    "Verif.Sll.C172_sps",
    "Verif.Sll.C172_order_witness",
    "Verif.Sll.C172_small_witness"
   ],
   "note": "In exact arithmetic with the decimals of cubic.cdk taken as 1/6 and 1/3. The order asked for by the caller has no effect on SLL and SPS, and SLC depends on which function was called before (witness); with three columns the field is left (witness)."
  },
  {
   "property": "C173",
   "status": "proved",
   "theorems": [
    "Verif.Sglo.C173_sphere",
    "Verif.Sglo.C173_grid",
    "Verif.Sglo.C173_west",
    "Verif.Sglo.C173_pole",
    "Verif.Sglo.C173_south_witness"
   ],
   "note": "In exact arithmetic. For SSNH and SANH not within one and a half steps of the south pole, where row 0 of the field is read (witness, for each field)."
  },
  {
   "property": "C174",
   "status": "proved",
   "theorems": [
    "Verif.Vll.C174_direction",
    "Verif.Vll.C174_calm",
    "Verif.Vll.C174_grid"
   ],
   "note": "With real numbers for speed and direction; the constants of pi.cdk are taken as exact."
  },
  {
   "property": "C175",
   "status": "proved",
   "theorems": [
    "Verif.GgRows.C175_rows",
    "Verif.GgRows.C175_north_witness"
   ],
   "note": "In exact arithmetic, with ROOTS set. The entries SSNHGG and SANHGG read beyond ROOTS(LJ) at each place (witness)."
  }
 ]
}