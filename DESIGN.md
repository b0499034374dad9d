# Formal model of librmn in Lean 4

## 1. Trusted base

* The Lean 4.33.0 kernel. Every theorem of `MANIFEST.json` depends on no axiom other than `propext`, `Classical.choice`
  and `Quot.sound` (checked with `#print axioms` on each of them). No axiom is added, and there is no `sorry`, `admit`,
  `native_decide` or `bv_decide`. Concrete witnesses use `decide +kernel`, which the kernel evaluates.
* The hand translation of C and Fortran to Lean. Each model definition cites file and lines. Nothing was compiled or
  run; the source was read as text. The mutation log (`seeded/LOG.jsonl`) tests that the theorems notice wrong models,
  not that the models are the code.
* The statements. They are written in terms of what a caller sees, apart from the model's own helpers as far as possible.

## 2. Modelling conventions

* C `uint32_t`/`int32_t`: `BitVec 32` (wrap-around), or `Nat`/`Int` where the code relies on no overflow; the range
  condition is then a hypothesis or is proved.
* Memory: lists with `Option`-valued access. `none` is an access outside an array or another undefined behaviour of C;
  it is never replaced by a default value. A theorem that says a call returns `some ...` therefore also says that the
  call stays inside its arrays.
* Uninitialised memory and out-of-range shifts are universally quantified parameters (`junk`, `u`).
* Word streams are related to `List Bool`, most significant bit first (`Bits.lean`).
* Stateful layers (XDF directory, whiteboard, page cache, jar, BURP report) are step functions; theorems are by
  induction over arbitrary operation sequences.
* Crashes: a session yields a list of disk writes; a crash keeps any subset of them in any order, the last one cut.
* Real arithmetic: reals are rationals and a rounding follows each operation. The roundings are parameters of which
  only relative error, monotony or exactness on representable numbers is assumed, as stated in each theorem; that IEEE
  arithmetic meets the assumptions is proved (`good_nearest`, `sub_exists`) where a theorem needs more than an error bound.
* Log messages, error texts, operating-system failures and threads are left out.

## 3. What is modelled

One line per model file: the code it follows, and what of that code is left out. Files not named here hold lemmas.

| Model (`lean/Verif/`) | Code | Left out or simplified |
|---|---|---|
| `BitStream` | `include/bitPacking.h`: `stuff`, `extract` | word size 32 only (the only one used) |
| `CompactInteger` | `src/packers/compact_integer.c`: `compact_integer`, `compact_short`, `compact_char` | token widths over 32; automatic signed width without header; int overflow of count times stride |
| `ArmnCompress` | `src/compresseur/c_zfstlib.c`: `armn_compress`, minimum and parallelogram coders | the floating-point logarithm is replaced by the bit length |
| `FstInt` | `src/fstd98/fstd98.c`: types 2 and 130 of `c_fstecr`, `c_fstluk` | missing values, image mode, stride, short and byte arrays |
| `BitSlicer` | `src/primitives/f_bit_slicer.c` | nothing |
| `Rle` | `src/packers/compact_rle.c` | int overflow of counts |
| `Ieeepak` | `src/primitives/ieeepak.F90` | 64-bit mode (`MOVE6432`) |
| `Base40` | `src/base/cvt_base40.f` | nothing |
| `Arc4`, `Crc`, `SwapBuffer` | `src/primitives/arc4.c`, `calc_crc.c`, `swap_buffer.c` | nothing |
| `Handles` | `src/fstd98/qstdir.h` 256-281, handle macros of `xdf98.c` | nothing |
| `FstKeys` | `qstdir.h` 430-482, keys and search masks of `fstd98.c` | origin date (`incdatr`) |
| `Xdf`, `XdfSearch`, `FstEcr` | `src/fstd98/xdf98.c`: open, close, put, get, delete, update, search, link; the end of `c_fstecr` | remote and Cray files, sequential files (see `XdfSeq`), word stride; the disk is a list of words |
| `Date`, `DateInc` | `src/base/moduledate.f90`, `datec.f`, `jdatec.f` | environment variable, messages, lock; text words of the date array |
| `WhiteBoard` | `src/whiteboard/WhiteBoard_c.c`: put, get, lock, checkpoint, reload | reading of text files, Fortran descriptors, verbosity |
| `WaFile` | `src/primitives/c_baseio.c`: `c_wawrit2`, `c_waread2`, page cache, unpaged access | remote files, sequential access, CMCARC sub-files |
| `FloatPacker` | `src/packers/float_packer.c` | float subtraction is a parameter |
| `Missing` | `src/fstd98/fst_missing.c` | user supplied encoders, environment variable |
| `Excdes` | `src/fstd98/excdes_new.c` | reading of directive files |
| `Jar` | `src/serializer/jar_mod.F90` | allocation failure, files of jars |
| `Sorts` | `src/base/ipsort.c`, `isort.f`, `sort.f` | the comparison is a parameter |
| `Grid` | `src/base/xgaig.f90`, `igaxg.f90` | general style of polar stereographic grids |
| `Convip` | `src/fstd98/convip_plus.f90`: `CONVIP_plus`, `conv_kind_15` | the text form |
| `EzCherche` | `src/interp/ez_cherche.inc` | nothing |
| `Armn32` | `src/compresseur/armn_compress_32.c`: compressor of IEEE fields (type 133) | nk, widths under 10, `MANTISSE_STREAM`, mask decoder, int overflow of dimensions |
| `Md5` | `src/primitives/md5.c`: MD5 and HMAC-MD5, with 64-bit variables | errors of files, `md5_ssh`, clearing of memory after use |
| `Bufr` | `src/burp98_f`: `mrbcov`, `mrbdcv`, `mrbcol`, `mrbtyp`, `qbrptri`, `bufrchr`, `mrbcvt` | reading of the table file, bits of repeated elements, overflow of codes; arrays are taken one element at a time |
| `Interp1D` | `src/interpv`: search of positions, four interpolations, fixed, lapse rate and abort extrapolations; threads of the Lagrange loop | surface extrapolations; infinities; sets and targets are taken one at a time |
| `Gmm` | `src/gmm`: gmm_create, gmm_get, gmm_delete, gmm_rename, gmm_getmeta, gmm_updatemeta, gmm_keys, gmm_shuffle, gmm_checkpoint_all | log messages, gmm_dumpinfo, gmm_update_tpi_key, patterns of gmm_keys, coding of the restart file; pages of the directory are one list |
| `Crc3` | `src/primitives/crc_16_24_32.c`, `crc16_.c`, `crc24_.c`, `crc32_.c`, `crc32.c`: update_crc_ne, f_update_crc_ne, crc32, f_crc32 | big endian machines; `crc16_reflect` etc., which is not called; null pointers |
| `EzGrid` | `src/interp`: c_ezidentify_reg_grid, c_ezidentify_irreg_grid, c_ez_findgrid, c_ez_addgrid, c_ezdefaxes (fields), c_ezgdef_fmem, c_ezgdef_ffile (types Y and Z), EliminerGrille | type U and super grids, values computed for type G, memory of axes; the code of a grid from memory is any function of its fields |
| `EzSets` | `src/interp`: c_ezdefset, reallocate_gridset_table, c_find_gdin, ez_find_gdin_in_gset | coordinates in the places (copied with them), list of output grids of an input grid, freeing of pairs |
| `EzInterp` | `src/interp`: ez_rgdint_0, ez_rgdint_1_nw, ez_rgdint_1_w, ez_rgdint_3_nw, ez_rgdint_3_w, ez_nwtncof (coefficients), ez_irgdint_1_nw, ez_irgdint_1_w, ez_irgdint_3_nw, ez_irgdint_3_w | rounding (exact rationals, but the constants of `cubic8.cdk` in single precision), the check of axes in ez_nwtncof, polar corrections (`_wnnc` kernels), `gggdint`, averages |
| `Gossip` | `src/primitives/gossip_sock.c`: write_ft_nonblocking_socket, read_ft_nonblocking_socket(_count), put/get_int32, send/get_ack_nack, check_swap_records, swallow_data, write_record, read_record; `swap_2/4/8` of gossip.h | the connection sequence, host names, `write_stream`/`read_stream`, failure of malloc, overflow of products of lengths (bounded in the theorems) |
| `Mgi` | `src/primitives/client_timeout.c`; `src/primitives/mgilib2.c`: strcopy, mgi_init, mgi_open (connection), retry_connect, mgi_set_retry_connect, mgi_clos, mgi_term | `mgi_read`/`mgi_write` (the server is not in the repository), counters that nothing reads |
| `FstData` | `src/fstd98/fstd98.c`: c_fstecr 806-951 (type and width), 953-1005 (sizes), 1100-1126 (images), 1149-1368 (packing), c_fstluk 2181-2268 (work field, images), 2270-2450 (unpacking), 2455-2466; choices of `fst_missing.c` 1496-1534, 1610-1639 | data of the compressed types (`FstInt`, `Armn32`), `compact_double`, `downgrade_32`, `xdf_stride` other than 1; the memory of the caller is a list of elements |
| `FstTurbo` | `src/fstd98/fstd98.c`: c_fstecr 1164-1190 (type 129), 1329-1352 (type 134), c_fstluk 2281-2297, 2416-2430 | doubles, missing values, stride other than 1 |
| `Fnom`, `FnomLemmas`, `FnomInv`, `FnomAttr`, `FnomSlots` | `src/primitives/c_baseio.c`: reset_file_entry, find_file_entry, c_fnom 242-587, c_qqqfscr, c_fclos, c_waopen2, c_waclos2, qqcopen 1851-1989, qqcclos | answers of the system (access, open, freopen, close, getenv, filepos, Fortran OPEN) are arbitrary inputs; remote files and pipes end in a fault; file sizes, CMCARC search (C91) and pages (C38) apart; names without length limits |
| `CmcArc` | `src/primitives/c_baseio.c`: filepos 1729-1846 | 64-bit additions without overflow; uninitialised and static memory is arbitrary |
| `Sq`, `Da` | `src/primitives/c_baseio.c`: c_sqrew, c_sqeoi, c_sqgetw, c_sqputw, c_sqgets, c_sqputs 1413-1583; c_checda, c_readda, c_writda 1207-1306 | local files, descriptor above 0; the transfers of direct access are requests to `WaFile`, block addresses without overflow |
| `FstEdit` | `src/fstd98/fstd98.c`: c_fst_edit_dir_plus 1389-1519, c_fst_edit_dir 1523-1546, c_fstmsq 2476-2550 | random files not linked; strings already padded to their width |
| `FstIp` | `src/fstd98/fstd98.c`: init_ip_vals 147-164, ip_is_equal 168-226, c_fstinfx 1662-1867 (random files, handle -2), c_ip1_all, c_ip1_val and the same for ip2, ip3 3428-3640 | sequential files; kinds are not negative; the codes come from `Convip` |
| `BurpHdr` | `src/burp98_f/mrbini.F90` 80-162, `mrbupd.F90` 79-165, `mrfloc.F90` 76-138, `mrfprm.F90` 66-121; `src/fstd98/burp98.c`: key functions 53-270, c_mrbhdr 661-735, c_mrfget 1104-1129, c_mrfput 1133-1168; `src/primitives/rah2char.c` for one character; layout `qstdir.h` 624-657 | no supplementary keys; the type, length and address words; messages |
| `Wkoffit`, `XdfLen` | `src/primitives/wkoffit.c`: isftnbin 231-246, c_wkoffit 319-453; `src/fstd98/xdf98.c`: c_xdfcheck 73-115; `src/primitives/fread32.c` | opening the file and cleaning its name; `test_fichier` (image formats) is an argument; signed overflow of `lng + 4` is the outcome `none` |
| `XdfSeq` | `src/fstd98/xdf98.c`: the sequential branches of c_xdfopn, create_new_xdf, c_xdfput, c_xdfloc2, next_match, c_xdfget2, c_xdfdel, c_xdfcls; `src/fstd98/fstd98.c`: c_fstweo, c_fsteof, c_fstrwd, c_fstskp, c_fstapp | files of 1989 (only the loops of c_fstskp), rewriting through a handle, random files opened as sequential; a record is named by its position (`Handles` has the handle); the file is a list of words without page cache (C33) |
| `EzProj` | `src/interp`: ez_crot, ez_lac, ez_cal, c_ezgfxyfll, c_ezgfllfxy, ez_vxyfll, ez_vllfxy, ez_gdwfllw, ez_llwfgdw, ez_uvacart, ez_cartauv, c_ezgfwfllw, c_ezllwfgfw, c_gduvfwd_orig, c_gdwdfuv_orig; `src/base/mxm.F90` | exact real numbers with the functions of Mathlib instead of `real`; one point at a time; the type `!`; the grid descriptors are arguments (cigaxg is in `Grid`) |
| `EzLocate` | `src/interp`: c_gdllfxy_new, c_gdllfxy_orig, c_gdxyfll_new, ez_calclatlon, ez_calcxy, ez_ll2rgd, ez_ll2igd, ez_llll2gd, ez_cherche, c_ezdefxg, c_llfgr, the j2 of ez_xpncof; `src/base/grll.f` | exact rational numbers instead of `real`; types A, B, G, L and Z or G axes on L; one point at a time; positions outside the axes are undefined behaviour (`none`) where the code reads outside the arrays |
| `EzZones` | `src/interp`: ez_xpnsrcgd, ez_xpngdag2, ez_xpngdb2, the j1 of ez_xpncof, ez_defzones, ez_defzone_*, ez_corrval, ez_corrval_aunord, ez_corrval_ausud, ez_calcpoleval, ez_fillnpole, ez_fillspole, ez_rgdint_3_wnnc, ez_irgdint_3_wnnc, ez_aminmax, c_gdinterp | exact rational numbers instead of `real`; degrees 0, 1 and 3 only in c_gdinterp; the row of a pole is a parameter, tied to gdxyfll in C113_pole_rows; not type Y, ez_corrbgd, yin-yang pairs |
| `EzOpt` | `src/interp`: c_ezsetopt, c_ezgetopt, c_ezsetfval, c_ezsetival, c_ezgetval, c_ezgetival | strings of characters taken as bytes; a buffer overflow is `none`; not the Fortran entry points |
| `EzYinYang` | `src/interp`: c_ezgdef_yymask, c_gdxyfll, c_gdllfxy, c_gdxysval, c_gdllsval on pairs, c_ezyymint, c_ezyy_calcxy, c_ezyysint, c_ezsint | exact arithmetic; what a single grid does is a parameter; not the winds (ezyyuvint.c, ezyywdint.c) |
| `CCard` | `src/primitives/c_ccard.c` | strings as lists of bytes, at most 100 keys; no messages |
| `Ibm32` | `src/primitives/ibm32_ieee.c` | words with an empty high half on input |
| `FCard` | `src/primitives/ccard.F90` | arguments from the command line only, first call; no messages, no help |
| `EzMask` | `ezget_mask_zones.inc`, `lorenzo_mask_fill.inc` | fields as functions, rational numbers |
| `EzCloud` | `ez_calcxy_y.inc`, `ez_calcxy_y_m.inc`, `ez_applywgts.inc`, `pt_in_quad.inc`, `ez_uvfllc2d.inc` | one output point at a time, rational numbers; without `inside_or_outside` |
| `EzAvg` | `ez_avg.inc`, `ez_avg_sph.inc` | rational numbers; 1/cos of the latitude is an arbitrary number of the row |
| `Readlx` | `readlx.F90`: `QLXXPR`, `QLXRPN`, `QLXPRI`, `QLXOPR`, `QLXTOK`, `QLXNUM` | tokens are numbers and operators; names of variables are errors; the conversion of reals is an arbitrary function of the characters; texts longer than the token are left out |
| `Tridiag` | `rossr3.f` | rational numbers; the arrays are parts of one memory and may be shared |
| `Spline` | `int1d1.f`, `spd.f`, `d1int1.f`, `fd1.f`, `fdm.f`, `d1.f`, `d1int2.f`, `d1intr.f` | rational numbers; divisions by zero and indices outside have no result |
| `UserLock` | `set_user_lock.F90` | any number of threads; each access to the lock is one atomic step |
| `NrRand` | `nr_rand.f` | integers without bounds; `nr_rand_r` and `nr_rand_d` are not modelled |
| `Stats` | `mwerms.f`, `corcof.f`, `s1scor.f` | real numbers without rounding |
| `LinkEdit` | `src/fstd98/xdf98.c`: c_xdfdel, c_xdfput, add_dir_page, c_xdfget2, c_xdfcls on linked files | random files open for writing; the data of a record is one number at its address, keys are left out |
| `Field` | `bilin.f`, `coupe.f`, `polagr.f`, `permut.f`, `mxma.F`, `movlev.F90` | rational numbers without rounding |
| `GribTable` | `igaxg95.F` | lines of the table already decoded, reals as integers; the search for the file is not modelled |
| `MtxInv` | `src/interp/ez_mtxinv8.inc` | rational numbers without rounding; loops of independent turns as one assignment |
| `Dmms` | `src/primitives/dmms.c`: heap blocks | memory as words of 8 bytes, malloc chooses the addresses; stack mode and BAD_POINTER left out |
| `ApplVar` | `src/primitives/appl_var.c` | characters are nonzero numbers; blank names are not modelled |
| `Qrbnbdt` | `src/burp98_f/qrbnbdt.F90` | error code as a Boolean |
| `EnvCrack` | `src/primitives/c_env_var_cracker.c` | strtok as the list of its tokens; a NULL token, an overrun buffer and quotes of one character are faults |
| `FStr` | `src/fstd98/FC_string.c`, `src/base/ftnStrLen.c`, `src/primitives/up2low.f`, `getenvc.c`, `src/fstd98/strgr4a.c`, `r4astrg.c` | characters as numbers, both orders of bytes for strgr4a; an access outside of a string is a fault |
| `FieldMath` | `src/base/sqadsq.f`, `mscale.f`, `coriol.f` | rational numbers for `real`; the arrays of SQADSQ are places in one memory |
| `Idxes` | `src/base/idxes.F` | whole |
| `Fread` | `src/primitives/fread32.c` | the machine has the low byte first; files and buffers as lists of bytes |
| `Ftn2c` | `src/primitives/ftn2c_helper_c.c`, `array_file.c` | files which can be opened, arrays of two words or more |
| `Key84` | `src/fstd98/c_fstgrib_helper.c` | words of 32 bits in a memory with addresses; checksum and clock are parameters |
| `ProgName` | `src/primitives/prog_filename.c` | characters as numbers; the messages are left out |
| `Constnt` | `src/primitives/constnt.F90` | rational numbers, rounding to single precision a parameter; the file as its records; broadcast does not change the table of the root |
| `Spectral` | `src/spectral/dimcal.F`, `alpas2.F`, `spaf2.F`, `fasp2.F` | any field for `real`; real and imaginary parts are treated alike |
| `Legendre` | `src/spectral/epsil2.F`, `alpnm2.F`, `alpdr2.F` | any field with a root; the derivative over the reals |
| `CalcDist` | `src/interp/ez_calcdist.c` | real numbers for `float` and `double` |
| `BurpPrml` | `src/burp98_f/mrbprml.F90` | reports of `Burp`; the words after the buffer are a parameter |
| `EwFdr` | `src/spectral/ewfdr2.F` | any ring for `real`; one memory of complex cells for the three arrays |
| `Xtrap` | `src/interp/ez_xtrap.inc` | rational numbers for `real`, 0.05 is exact |
| `FstCvt` | `src/fstd98/fstcvt2.f` | words as lists of four characters; an error of a formatted write is `none` |
| `Qrbsct` | `src/burp98_f/qrbsct.F90`, `mrbrpt.F90` | lines as the fields looked at, the numbers already read; the environment and the open are left out |
| `PoleWind` | `src/base/npspin.F`, the pole case of `vglo.F` | real numbers for `real`, exact constants |
| `OrdLeg` | `src/spectral/ordleg8.F` | real numbers for `real*8` |
| `Gauss` | `src/spectral/gauss8.F` | real numbers for `real*8`; the loop with a bound on the passes, the theorems hold for every bound |
| `HybRef` | `src/fstd98/hybref.f90`: conversions, coding, `hyb2pres` from line 80 on | real numbers for `real`; a file is the records which are found, all of which can be read |
| `DGauss` | `src/base/dgauss.F`, `ordleg.F`, `src/interp/ez_glat.inc` | real numbers for `real`; the loop with a bound on the passes, the theorems hold for every bound |
| `SurfExtrap` | `src/interpv/Extrap1D_Surface_Body.inc`, `Extrap1D_SurfaceWind_Body.inc` | rational and real numbers; one element; the callback is a value |
| `Sll` | `src/base/sll.F`, `sps.F`, `cubic.cdk`, `lagrange.cdk` | rational numbers; the projections XYFLL and XYFLCC are not part; the common variable ORDINT is an argument and a result |
| `Sglo` | `src/base/sglo.F` | rational numbers; on the indices of `Idxes`; ORDINT is an argument; ABORT is `none` |
| `Vll` | `src/base/vll.F` | rational components, real speed and direction; exact constants of pi.cdk |
| `GgRows` | `src/base/sglogg.F`: search of the rows | rational numbers; ROOTS is set already; the interpolation after the search is not part |
| `ConvertIp` | `src/fstd98/convert_ip123.f90`: coupled coding of levels and times in ip1, ip2, ip3 | vector versions (pass their elements on), `FLOAT_IP` with NaN |
| `CompactFloat` | `src/packers/compact.tmplc`: quantised float packing (types 1 and 129) | strides, double input, widths over 32, NaN and infinities; scaling by powers of two taken as exact |
| `Burp` | `src/fstd98/burp98.c`: blocks of a report; buffer functions of `xdf98.c` | report header, files of reports, stride |

Not modelled at all: surface extrapolations of `src/interpv`, parts of `src/interp` that are not named above (wind components, extension of L and Z grids, E grids), `src/spectral`, the assignments and calls of `src/readlx`, `src/template_utils`, the compressors of real fields (type 134), remote access, and the Fortran interface layers.

## 4. Properties

Status, then what is proved and what is missing, then how it is proved. Theorem names are in `MANIFEST.json`; statements in `lean/Verif/Props/`.

### C01 Unsigned integer packing is lossless (proved)

Full round trip for all widths, offsets, strides; needs one readable bit after the stream (witness shows why).

Proof: `stuff` and `extract` refine appending and taking bits of a bit list; induction over the tokens.

### C02 Signed integer packing is lossless (proved)

Full round trip for two's complement values.

Proof: as C01, with the sign mask as a bijection of the range.

### C03 Packing only changes its own bits (proved)

All modes of compact_integer packing modelled (automatic signed width without header is not).

Proof: as C01: bits outside the stream are carried through the induction.

### C04 Integer packing with a header and automatic width is lossless (partial)

The code violates the full statement: automatic width with header loses the top bit of 32-bit data at unaligned offsets and cannot decode constant arrays.

Proof: header model on top of C01; the failing inputs are concrete.

### C05 16-bit and 8-bit integer packers are lossless (proved)

Element width is a parameter (16 for compact_short, 8 for compact_char).

Proof: the model of C01 with the element width as a parameter.

### C06 Field compression is lossless (minimum method) (proved)

Whole encoder and decoder, including buffer bounds; bit length in place of the floating-point logarithm.

Proof: decoder run on the encoder's bits, induction over tiles and over tokens of a tile.

### C07 Field compression is lossless (parallelogram method) (proved)

Whole encoder and decoder, including buffer bounds.

Proof: as C06; differences modulo 2^32 are undone row by row.

### C08 Compression never grows a field and a refusal leaves it usable (proved)

armn_compress COMPRESS/UNCOMPRESS including method choice, header and half-word swap; restores the first ni*nj values (see C52 for nk > 1).

Proof: size comparison of the code, C06, C07 and the half-word swap.

### C09 Bit slicing get is the inverse of put (partial)

The code violates the statement: a 32-bit slice starting at a word boundary is read as the next word. Proved for all other slice sequences.

Proof: the reservoir of both directions refines a bit list.

### C10 Run-length packing is lossless (partial)

The code violates the statement: pending repeats are lost when the last element starts a new run. Proved otherwise.

Proof: tokens expanded by the decoder; induction over runs.

### C100 The type of a file depends on the file alone (partial)

Files of 124 bytes or more whose first word does not point outside; for others the answer depends on uninitialised memory (witnesses). The image formats tried last are a function of the file left open.

Proof: the words tested lie inside the file; the position of the stream is followed through failed seeks.

### C101 A sequential file gives back its records and marks in order (proved)

Record types 1 to 111, lengths below 2^25 - 130 words. Beyond 2^23 words the record is followed by padding (less than 128 words of the caller's memory), which the theorem bounds. An empty file has no end mark (C101_empty_witness).

Proof: invariant of a writing session: the words up to the position are the layout of a list of items; the search loop over a layout by induction on the items; the items against the history by a relation that allows padding.

### C102 Skips, rewinds and searches of a sequential file move by whole records (partial)

Full behaviour in files opened again. In the session that created the file skips from the start fail, and on files of 1989 c_fstskp never moves (witnesses).

Proof: each loop of c_fstskp one step at a time over the layout; marks are told from postfixes by the type of the word before.

### C103 What is appended to a sequential file follows what it held (partial)

Holds for the records before the first mark; c_fstapp stops at that mark, so later logical files are replaced (witness).

Proof: as C101, the session starting from the items before the first mark.

### C104 Deleting a record of a sequential file leaves the others (partial)

Records before the deleted one are found; type 255 ends every search, so the records after it are lost (witness).

Proof: the layout cut at the deleted record, whose type 255 acts as an end.

### C105 Rotated coordinates and true coordinates are inverse of each other (proved)

In exact real arithmetic; rounding is not modelled. Equal or opposite defining points divide by zero (C105_equal_witness). At the poles the longitude is not determined.

Proof: the rows of the matrix are orthonormal (algebra from the two unit vectors); the transpose is then the inverse; ez_cal is inverse to ez_lac by the identities of arcsin and arg.

### C106 Polar stereographic coordinates and latitude-longitude are inverse of each other (proved)

In exact real arithmetic; rounding is not modelled. Orientations outside (-180, 180] can give longitudes outside [0, 360) (C106_range_witness).

Proof: both routines reduced to polar coordinates in the plane; angles compared by sine and cosine.

### C107 Winds converted to grid components and back are unchanged (partial)

In exact real arithmetic. Fails for grids of type E: the call in gduvfwd.c:47 has its arguments exchanged, transforms uninitialised memory and overwrites the caller's coordinates (C107_E_witness). The type '!' is not modelled.

Proof: direction formulas of all grid types reduced to one angle; the wind vector is tangent to the sphere, so its two components determine it.

### C108 Grid indices to latitude-longitude and back give the same indices (partial)

In exact arithmetic. Holds for A and B, L with an origin not negative, axes within one range of longitudes, and Gaussian grids over the globe or over the south. Fails for ig2 = 1 with axes, for axes that cross 0 and 180 degrees, for a negative ig4, and for Gaussian hemispheres north or with rows from the north (witnesses). Types E, N, S, '!', rotated references and yin-yang pairs are not in this model.

Proof: amod gives the unique representative of a longitude in one turn; the search on an ascending axis finds the interval, where the two linear formulas are inverse.

### C109 gdll and gdllfxy give the same coordinates to the points of a grid (partial)

In exact arithmetic. Fails for A and B with rows from the north, for axes with ig2 = 1, for northern Gaussian grids and for a negative ig4 (witnesses).

Proof: both functions reduced to the entry of the axis, or to the same linear formula; two reductions by amod equal one.

### C11 IEEE truncation packing keeps exactly the leading bits (proved)

All widths up to 32 bits; needs one readable word after the unpacked field (witness). 64-bit mode (MOVE6432) not modelled.

Proof: packed bits are the leading bits of each word; induction over words.

### C110 Interpolating from one grid does not change positions in another (partial)

Longitudes change only by whole turns. Positions are independent for sources that leave the longitude as it is. An L source with its origin east of the point moves the point 360 columns away in later sources (C110_witness).

Proof: induction over the sources; each branch of the range corrections adds a multiple of 360, and none under the stated condition.

### C111 Hemispheric fields are completed with the rows of the other hemisphere (proved)

The opposite latitude is stated with the model of gdllfxy for A and B, and by row numbers (mirror) for A, B and G.

Proof: the loops of ez_xpngdag2 and ez_xpngdb2 are given by which row they write last; the latitudes come from the model of gdllfxy.

### C112 Points outside the source grid get exactly the extrapolation asked for (proved)

In exact arithmetic, with the option polar_correction on: without it ezsint does not call these functions and no extrapolation option has any effect.

Proof: index lists are filters of the positions, and pasting changes exactly the listed points; extreme values by induction over the field.

### C113 Near the poles an interpolated field goes continuously to the value of the pole (partial)

In exact arithmetic. Values agree with plain interpolation on the rows of the grid and stay within the last row beyond it, but the place used for the pole is a whole row beyond the last row, so the value jumps at the pole of an A grid; the averages leave points near the poles undefined; further cases in the witnesses.

Proof: each correction is reduced to the interpolation kernel on the four rows of `temp`, and the kernel evaluated on its rows; bounds from convexity of linear interpolation.

### C114 Interpolation options set by name are read back (partial)

The averages are accepted but read back as error; neutral is stored as the degree of interpolation of the moment (with average, as maximum); correction_polaire, use_1sousgrille and missing_gridpt_distance can be set but not read (witnesses). Names of 32 characters or more overflow a buffer.

Proof: case analysis over the chains of comparisons; the names are arbitrary strings, the tables of accepted and readable names are written out in the statements.

### C115 A point of a yin-yang pair gets a position within the grid it is taken from (partial)

For masks that leave out the first row and column. The limits of the mask count from 0 and positions from 1: with a mask from the first column on, points up to one cell outside yin are taken from yin (witness).

Proof: induction over the axis for the mask; case analysis of the three tests for the position; the functions of the single grids are arbitrary.

### C116 Making the mask of a pair leaves the interpolation options as they were (partial)

The averages are not put back (nearest stays), and the extrapolation value stays 1 unless the degree was value (witnesses).

Proof: the options of `EzOpt` before, during and after; the degrees that calls can reach by induction over the calls.

### C117 Interpolation from a pair takes each point from the grid its mask names (partial)

Without the polar correction the mask is 0 everywhere and yang is never used; from a pair to itself only the half of yin is copied (witnesses).

Proof: the mask from C112; the two packed lists and the merge by induction over the points.

### C118 Arguments given by keys set exactly the keys they name (partial)

For values that fit. Too many values make an endless loop or reads beyond the table; -- without keys called - reads before it; the number of positional arguments starts from an uninitialised variable (witnesses).

Proof: a command line is written out from its keys and values, and the parser is followed over it by induction; keys not named by an invariant over all command lines.

### C119 IBM numbers become the same IEEE numbers (partial)

For mantissas that are not zero. Zeros with exponents from 33 to 96 are left as they are and are then not zero (witness).

Proof: the loop of shifts by induction; numbers as rationals.

### C12 Base-40 names convert back to themselves (proved)

Holds for strings whose value fits a 32-bit integer (always up to 5 characters); witnesses show the limits.

Proof: positional notation with digits below 40.

### C120 Arguments given by keys set exactly the keys they name, in Fortran (partial)

Without --, and positional arguments only with keys called -. The argument -- also counts as a key called - and wipes out the first positional argument; without keys called - an argument that belongs to no key goes to the first key (witnesses).

Proof: as C118: the command line is written out from keys and values and the state of the scanner is followed over it.

### C121 Mask zones count the points around that are present (partial)

Inside the grid. On the last row or column the mask is read outside the array; the zone of missing nearest points is never given (witnesses).

Proof: decision logic over rational positions.

### C122 The mask of an interpolated field (partial)

With linear, the last row and column of the output are not looked at, nor the corner ix, iy unless it is the nearest point (witnesses).

Proof: decision logic over rational positions.

### C123 Filling masked points leaves the others alone (partial)

With the third method, rows whose only value is in the last column are not filled (witness).

Proof: invariants of the loops; the prediction by induction over rows and columns, the third method by a characterisation of its loop.

### C124 Weights of scattered points belong to the nearest ones (proved)

For thresholds below 1784 degrees; the default is 10.

Proof: invariant of the scan: the chosen points are the best so far, in the order in which the first maximum is replaced.

### C125 Scattered data are interpolated with the weights of the point (partial)

Without the last column, whose points take the weights of the next row (witness); masked points may stay unset (witness).

Proof: induction over the weights, with C124.

### C126 Points in cells and their place in them (partial)

Places below 0.01 are changed on purpose, but the second one is replaced by the first (witness).

Proof: barycentric coordinates; algebra of projective maps.

### C127 Averages over cells of the output grid (partial)

Rows other than the first and the last, cells that begin at 0 or later; the first and the last row and other cells are wrong (witnesses).

Proof: sums over tiles; the weights are the lengths of intersections up to a factor that cancels.

### C128 Expressions of directives (partial)

Expressions of integers without NOT; powers are taken from left to right, signs before powers, and reals are computed as integers (witnesses).

Proof: induction over expressions with the stacks of operators and values as invariant; the value is that of the tree.

### C129 Reading the tokens of directives (partial)

Expressions of integers; texts in quotes are taken for operators (witness). Names of variables and continuation lines are not modelled.

Proof: induction over the tokens written; each is followed by a character that does not continue it.

### C13 Stream cipher decrypts what it encrypted (proved)

Whole cipher; state is a list of 256 bytes.

Proof: key stream as a state machine; exclusive or twice.

### C130 Tri-diagonal systems (proved)

Without rounding. The condition of the comments is not enough and C(M) is changed (witnesses).

Proof: invariant of the elimination over the shared memory, then of the substitution; the solution is unique.

### C131 Cubic splines through points (proved)

Without rounding, places in order and between the first and the last point, as the comments ask.

Proof: the lines of SPD are the equations of a continuous second derivative; polynomials of Mathlib.

### C132 Slopes at the ends of splines (partial)

FD1 and FDM are exact for cubics; D1 and DN only for parabolas, not to the order claimed (witness).

Proof: algebra for four points; the slopes of a cubic solve the system of SPD, which has one solution.

### C133 Bicubic interpolation of two-dimensional splines (proved)

Without rounding; D1INT2 needs places in order that are not beyond the last point.

Proof: the weights of one direction reproduce cubics; both directions are independent.

### C134 Locks between threads (partial)

Holds if no other thread comes between the reads and the write, and up to a depth of 127; else two threads hold the lock (witnesses).

Proof: invariant of the lock word between turns of the loop; schedules of single steps for the witnesses.

### C135 Random numbers (partial)

The range holds for seeds up to 161803398 and not for others (witness).

Proof: invariant of the table over any calls; two runs agree on the table once it is filled; the table is a ring of the last 55 numbers.

### C136 Mean and standard deviation of an error (partial)

Without rounding. Windows that begin before the arrays are not refused (witness).

Proof: sums over lists equal to sums over the window; identity of the variance.

### C137 Correlation of changes (proved)

Without rounding, for windows inside the arrays.

Proof: inequality of Cauchy and Schwarz from the sign of a quadratic.

### C138 S1 score (proved)

Without rounding, for windows inside the arrays.

Proof: each error of a gradient is at most twice the larger gradient.

### C139 Changes to linked files (partial)

Holds for handles to pages of the file itself. Through a handle to a linked file, deletion falsifies both counts and may not be saved, rewriting destroys data of the other file, for all such handles.

Proof: invariant of each file (count, pages saved, marks) over any calls; for linked handles the invariant is shown to break.

### C14 CRC detects burst errors (proved)

The table-driven update equals bitwise division; any burst up to 16 bits changes the checksum.

Proof: the table step is eight steps of division; the map of a burst is linear and injective.

### C140 Bilinear interpolation and sections (partial)

Without rounding. A field of one column or row is read outside of its bounds, a section of one point divides by zero (witnesses).

Proof: the cell of the point; the section by induction over its points, inside by convexity.

### C141 Lagrange interpolation (proved)

Without rounding, for points that differ; else there is a division by zero.

Proof: product and sum of the loops, uniqueness of the Lagrange polynomial (Mathlib).

### C142 Rearranging and multiplying arrays (proved)

The product without rounding, and if the elements of the result do not meet.

Proof: loops by induction, with the contents of every element.

### C143 Grids by GRIB code (partial)

Holds if the first record with the code is that of the centre asked for; else the record of another centre is returned (witness).

Proof: induction over the table.

### C144 Inverting a matrix (proved)

Without rounding.

Proof: each turn exchanges one unknown with one right hand side of the system y = A x (invariant over the turns); the last loops undo the interchanges; a zero pivot gives a right hand side without solution.

### C145 Memory blocks with guards (partial)

Blocks of hpalloc stay intact and can be freed. hpcheck sees the last block only; blocks of ca_alloc can be freed exactly if no aligned address is 48 bytes behind their beginning; INITMEM destroys the guards of blocks of four items or more; after a refused allocation every call stops the program.

Proof: invariant over any run (the words of live blocks and list heads); arithmetic of addresses for ca_alloc.

### C146 Variables of an application (partial)

Holds for names none of which is the beginning of another, at most 1024 of them. Reading writes one place behind the caller's variable, and before it if the value is too long.

Proof: the table refines a map from names to last values (induction over the settings); the bytes left by malloc are arbitrary.

### C147 Bits for a BURP block (partial)

Holds for absolute values below 2**31-1 and at most 32 bits; the largest value gives an error with the number of bits unchanged.

Proof: the loop finds the least number of bits (induction), the extent by induction over the values.

### C148 Options in environment variables (partial)

Holds for lists of words, in brackets if there are two or more. A single value in brackets gets a wrong place, and the call cuts the environment after its first variable.

Proof: the tokens of a joined list are its parts (induction), for any list of variables.

### C149 Strings of Fortran and C (partial)

Holds for strings which are not all blank. Removal of the blanks of an all blank string leaves the buffer on its left side, and the length of a string of no characters reads outside.

Proof: recursion on the strings, position by position.

### C15 Record handles identify records (proved)

Holds while no sequential file is open; the witness shows that an open sequential file makes file indices above 127 ambiguous.

Proof: bit-field arithmetic.

### C150 Squares of fields, map scale and Coriolis parameter (proved)

In exact arithmetic.

Proof: the loops visit each offset once, so that coinciding arrays do no harm; the scale by field arithmetic from the equation of the projection.

### C151 The sixteen points around a place on a sphere (partial)

Holds but for a northern field and a place less than two rows from the south pole, where the row is 0.

Proof: cases of the kind of field and the side of the poles, linear arithmetic.

### C152 Files of big-endian numbers (partial)

Holds below 4 gigabytes in one call and where the file has all that is asked for. After a short read bytes which were not read are exchanged; from 2^31 numbers on none are.

Proof: the exchange of bytes is an involution on whole numbers, shown for any number of them.

### C153 Copies of strings with filling (partial)

Holds for strings which are not blank; a blank or empty string makes the copy read before its beginning.

Proof: recursion on the strings; the two arrays by induction on the number of strings.

### C154 A file in an array (partial)

Holds for files which fit; a larger file is cut without a sign of it, against what the comment of the routine says.

Proof: the parts taken and cut have the length of the file.

### C155 Keys of 84 bits (partial)

Holds for the C routines. The Fortran one passes the address of ip1 for ig1: ig1 is never stored and ip1 is overwritten.

Proof: the slices of C09 as one number in base 2^28 and 2^21, modular arithmetic.

### C156 Names of output files (partial)

Holds for results of 35 characters or more and units which are no digits. In 16 characters, which are allowed, the number is cut; minutes without seconds are dropped.

Proof: a reader of names applied to the parts, lengths of numbers with leading zeros.

### C157 The table of common constants (partial)

Holds for files whose first name is not blank.

Proof: induction on the calls; the list with its first match is the map.

### C158 Spectral transforms (proved)

In exact arithmetic; orthonormality of the values is a hypothesis.

Proof: induction on the rows for each pass; the sums are exchanged and the orthonormality used.

### C159 Associated Legendre functions (partial)

In exact arithmetic, for rows of two values or more but the last; rows of one value are all stored at the first place.

Proof: induction on the rows and places; the derivative by two-step induction on the recurrence with the identity of the constants.

### C16 Sequential handles identify record addresses (proved)

Handle round trip for aligned addresses below 2 Gb, and appending keeps addresses aligned.

Proof: bit-field arithmetic and alignment as an invariant of appending.

### C160 Distances on the sphere (partial)

In exact arithmetic. The area of the first routine is wrong for obtuse angles (witness); that the second gives the area of a triangle is not proved.

Proof: the arc cosine of the scalar product of two unit vectors; the triangle inequality of angles.

### C161 Parameters of all blocks of a report (partial)

Holds from the first block on, or if no more columns are asked for than blocks follow. Histories are those of C49.

Proof: the fields of a header as in C49, induction on the columns.

### C162 East-west derivative of Fourier coefficients (proved)

In exact arithmetic.

Proof: a fold over places without repetition, each of which is read before it is written; derivative of sums.

### C163 Extrapolation codes (partial)

In exact arithmetic. Points less than a step behind the last column or row are not treated as outside (witness).

Proof: floor and ceiling bounds of the rounding; induction on the loop of the extremes.

### C164 Names as words and as characters (partial)

Holds without the character 255, for the lengths which the writes accept (C164_lengths).

Proof: character by character: both sides have the same character at each place.

### C165 Reading of the table of BUFR elements (proved)

Numbers on the lines are taken as already read.

Proof: induction on the lines with the bits set so far.

### C166 Wind at a pole (partial)

In exact arithmetic, for NPSPIN with the right step of longitude. VGLO and VWNH call it before the step is set (witness).

Proof: the sums are real and imaginary parts of a sum of complex numbers; argument of a complex number.

### C167 Legendre polynomials by Belousov's algorithm (partial)

In exact arithmetic, for wave numbers from 1 on; for 0 the code uses a variable which is not set (witness).

Proof: the product of two binomial series satisfies a differential equation which is the recurrence of Bonnet; its coefficients are the sum of cosines; invariant of the loop.

### C168 Gaussian latitudes (proved)

In exact arithmetic. That the loop ends, and that the first values lead to different roots, is not claimed.

Proof: the derivatives of the polynomials of Bonnet's recurrence and two identities by induction; the coefficients are ratios of the norms.

### C169 Hybrid levels and pressure (partial)

In exact arithmetic; hyb2pres for one level only: it overwrites its own dimensions when it looks for the records, so that with more levels the rest is not written (witness); kind 2 and kind 5 do not give the units asked for (witnesses).

Proof: closed form of the pressure on a normalized level; Bernoulli's inequality bounds the slope of the power; the coding in single precision by evaluation of all 1001 codes.

### C17 Record descriptors survive the directory encoding (proved)

All descriptors within the ranges checked by c_fstecr; names over the 6-bit set plus lower-case letters; dates ending in 8 or 9 excluded (C34); the origin date computed by incdatr is not part of the model.

Proof: bit-field arithmetic over 64-bit units, characters through the 6-bit table.

### C170 Roots of Legendre polynomials and latitudes of a Gaussian grid (partial)

In exact arithmetic, for the globe and the north; in the south with an odd order the loop refines other positions than those which were set (witness). That the loop ends, and that the first values lead to different roots, is not claimed.

Proof: with the derivative of C168; the loop over the positions by induction; parity of the polynomials by induction.

### C171 Extrapolation near the surface (proved)

In exact arithmetic, after the tests of the numbers of arrays; the callback is any value.

Proof: on the positions of C66: a target below the second lowest level has the lowest position; exponential form of the vector.

### C172 Interpolation in a regular grid: SLL, SPS (proved)

In exact arithmetic with the decimals of cubic.cdk taken as 1/6 and 1/3. The order asked for by the caller has no effect on SLL and SPS, and SLC depends on which function was called before (witness); with three columns the field is left (witness).

Proof: Lagrange's form on four consecutive integers is CUBIC; so the four cases are one, the cubic through four cubics.

### C173 Interpolation on the sphere: SGLO, SSNH, SANH (proved)

In exact arithmetic. For SSNH and SANH not within one and a half steps of the south pole, where row 0 of the field is read (witness, for each field).

Proof: from C151: each of the sixteen values is that of the continued field.

### C174 Wind from a latitude-longitude grid: VLL (proved)

With real numbers for speed and direction; the constants of pi.cdk are taken as exact.

Proof: the argument of a complex number of the same modulus as the wind.

### C175 Rows around a place in a Gaussian grid: SGLOGG (proved)

In exact arithmetic, with ROOTS set. The entries SSNHGG and SANHGG read beyond ROOTS(LJ) at each place (witness).

Proof: one case for each value of ICASE; induction over the steps of the two loops.

### C18 Search criteria select exactly the records that agree with them (partial)

The code violates the statement for labels whose first ten characters are blank (last two ignored); proved for all other criteria, exact condition proved too. ip1_all-style flags not modelled.

Proof: masked comparison of words is comparison of fields.

### C19 A search sweep visits every matching record once (proved)

fstinf/fstsui/fstinl on one random file after any history; nmax positive for fstinl. Searching resumed by handle also covered.

Proof: invariant of the search pointer; induction over the remaining pages and entries.

### C20 Deleting a record removes that record only (proved)

All histories of appends, rewrites, deletions, checkpoints, closings and reopenings of one random file, at the XDF level (c_xdfdel behind c_fsteff). Not readable by its handle, not found by any search.

Proof: refinement of the file to a list of slots; induction over histories.

### C21 A written record can be read back during the session (proved)

XDF level: directory pages, record placement, disk words. Refinement to a list of slots for all histories.

Proof: as C20, with the layout of records on disk as invariant.

### C22 Closing and reopening a file preserves its records (proved)

All histories, any number of directory pages up to the 1024 the library allows; files below 2^30 64-bit units (the code's int addresses).

Proof: as C20; opening rebuilds the directory from the words written by closing.

### C23 A crash before close does not lose previously closed records (proved)

Crash = any subset, cut or reordering of the session's writes. Checkpoints inside the session are excluded (they write the directory).

Proof: writes of a session lie behind the closed file except those of close; any subset of them is harmless.

### C24 A file left half-closed is not opened for writing (proved)

Any part of the writes between the first and the last write of close.

Proof: the header flag is written first and cleared last.

### C25 Directory checksum catches any damage confined to one word (partial)

The code violates the statement for the first four words of a page, which no checksum covers; proved for all other words.

Proof: the checksum is an exclusive or; one changed word changes it.

### C26 Record counts agree with the directory (proved)

Header nrec after any history.

Proof: invariant over histories.

### C27 Rewriting replaces the record it was asked to replace (partial)

The code violates the statement: the date is not compared, and blank names act as wildcards (witnesses). Proved for everything else, after any history of the file.

Proof: search model applied to the rewrite mask, then C20.

### C28 Linked files are searched as one (proved)

Any number of distinct linked random files with fewer than 4096 pages in total. The witness shows that resuming a search by handle (fstinfx) on a page of a linked file uses an unset pointer.

Proof: search over the chain of pages of the linked files.

### C29 Calendar date and Julian day number are inverse to each other (proved)

Years 0 to 9999; Int arithmetic, with a separate theorem that no intermediate value leaves 32 bits.

Proof: integer arithmetic of the calendar against counting days.

### C30 Date stamps decode to the date they encode (partial)

All conversions round trip except mode 2 for 1901-01-01 01Z, where the code returns an extended true date (witness).

Proof: case analysis of the stamp styles, C29.

### C31 Different date-times have different stamps (proved)

Monotone for new-style stamps (from 2000) and for extended stamps as unsigned numbers; old-style stamps are injective only.

Proof: monotony of the styles on their ranges.

### C32 Adding hours and taking differences agree (partial)

All three calendars, all stamps, all hours; excluded are exactly the cases of Trouble, in which the code is wrong (witnesses).

Proof: stamps are times on a line; leap days and 360-day years as monotone maps between lines.

### C33 Leap-year suppression is consistent (partial)

Adding years of 365 days is proved outright; never 29 February is proved except when going back from 28 February 23h of a leap year in extended dates, where the library is a day off.

Proof: as C32.

### C34 Record dates survive the octal recoding (partial)

The code violates the statement for stamps ending in 8 or 9, which come back 2 too large; proved for all others.

Proof: arithmetic on the last digits.

### C35 A variable read from the whiteboard has its last written value (partial)

All histories of puts, locks and checkpoint/restarts over any number of variables and pages, for all types. Missing: the two misuses under which the code itself breaks the statement (contradictory options on a large variable, array put over an 8-byte scalar or string), shown by witnesses.

Proof: pages refine a finite map of values; induction over histories.

### C36 Protected whiteboard variables never change (partial)

All histories; excluded is an array put over an 8-byte scalar or a string, by which the code overwrites its neighbours, read-only or not (witness).

Proof: as C35.

### C37 A refused put leaves the old value (partial)

The code violates the statement: a put refused for type, dimension or length makes the old value unreadable (witness). Proved: other variables are untouched, and the own one is either untouched or reports WB_ERR_BADVAL.

Proof: as C35.

### C38 Whiteboard checkpoint and reload restore the variables (proved)

Every whiteboard reached by a history of puts, locks and restarts, any old bytes behind the checkpoint; local variables come back without value.

Proof: as C35; the bytes written are read back to the same pages in reverse order.

### C39 The page cache of word-addressable files is transparent (partial)

All histories, page sizes, page counts, evictions and memory contents. The code violates the statement: reads stop the program when the file has two pages (proved), requests starting at the last word of a page access memory outside it, and a write ending one word before the end of file can destroy that word (witnesses). Proved for the rest: never a wrong word, and never a stop with one page or without reads.

Proof: invariant: each cached word is the file's word or newer; induction over histories.

### C40 Word-addressable read returns the last words written (partial)

All histories. The code violates the statement for holes over 512 words, filled from the stack, and stops on a read two words after the end (witnesses); proved for the rest. Sequential access (offset 0) not modelled.

Proof: the file refines a list of words; induction over histories.

### C41 Float packing error is bounded by the quantum (partial)

All finite fields of any length, widths 1 to 16, any nearest-float subtraction. Missing, because the code violates the statement there (witness): fields that contain zero or subnormal numbers and nothing as large as 2^-103.

Proof: integer mantissas; the error of each step is bounded by the quantum.

### C42 Missing values survive encoding (partial)

All types, widths, flags and fields. The code violates the statement for fields that start with a missing value (proved for all of them), signed shorts and bytes with a value above -2, fields whose maximum is the flag less one, nearly constant negative real fields (witnesses); proved for the rest. Real arithmetic: monotone roundings with relative error 2^-24, no overflow or underflow.

Proof: order of the substitute value against all packed values, through the packers of C01 and C41.

### C43 Selection directives decide by first satisfied request (partial)

All histories of requests, resets and group selections, and all records. Missing, because the code violates the statement there: open ranges of ip1, ip2 and ip3 accept every level of the kind (proved in general), ig4 is compared with ig2, a refused call drops the date criterion of the set, a refused date list leaves a set that every record satisfies, negative stamps are taken for open ends (witnesses).

Proof: requests as predicates; the table walk finds the first satisfied one.

### C44 Serializer jars are first-in first-out (partial)

All sequences of inserts, extracts and resets, all sizes, any initial memory: without positions a jar is a queue; with positions it is a list of bytes. The code violates the statement for inserts at a position more than one behind the end, which always write outside the jar (proved); all other positions are covered.

Proof: the memory of the jar refines a list; induction over operations.

### C45 Index sort returns a sorted permutation (proved)

All arrays of any type with a comparison that orders them (numbers other than NaN, strings), any quotient of the gap within 2^-22 of gap/1.3. Covers ipsort, ipsort8, ipsorti, ipsortc. With no elements ipsort still writes index[0] (witness).

Proof: comb sort ends with gap 1 and no exchange; exchanges preserve the permutation.

### C46 In-place sort returns a sorted permutation (proved)

All arrays and comparisons that order them; access outside the array is an error in the model and does not occur.

Proof: heap order as loop invariant.

### C47 Grid descriptors convert back to themselves (proved)

All parameters of the documented ranges, on the lattice and off it, any rounding with the error bounds of IEEE single and double precision (underflow included). E comes back bit for bit on its lattice; L within rounding; + within one hundred thousandth of a degree, bit for bit from 129 degrees. Also grids A, B, G, C, H and the first style of N and S; the general style of N and S (trigonometry) is not modelled. Very negative longitudes make the code loop for ever (witness).

Proof: integer parts on the lattice; error bounds of the roundings off it.

### C48 Encoded levels decode to the same level (partial)

All kinds defined in the code and all single precision values of their ranges, any rounding to nearest. The code violates the statement for negative values over -4.9e-12, which come back positive (proved for all of them); 999999.5 is encoded with a pseudo mantissa of 1000000 and its decoded value in another way; indices over 4.8e8 have no code; kinds that are not defined are encoded without an error (witnesses). The smallest values of kinds 6, 17 and 21 come back as the base value. Re-encoding is stable for all codes with a normal pseudo mantissa.

Proof: the mantissa has six or seven digits, so single precision returns it; error bounds elsewhere.

### C49 BURP blocks give back elements and values (partial)

All histories of additions, deletions and replacements, any number of blocks, all dimensions, element lists, widths and types 2 to 9. Missing, because the code violates the statement there: deleting a block of type 3 leaves its values and shifts the others (witness), an addition refused for its type has already moved the other blocks (witness), width 0 with missing values only (witness). Room: the report must hold all blocks at 32 bits an element and one more word.

Proof: layout invariant (headers, then bodies in order, bit0 of each the sum of the lengths before) kept by each operation.

### C50 Table search brackets the value (partial)

Proved for tables of fewer than 2^23 entries; the single-precision midpoint makes the search loop forever on larger tables (witness).

Proof: loop invariant of the bisection.

### C51 Byte swapping twice is the identity (proved)

Proof: byte permutation is an involution.

### C52 Compression keeps every level of a field (partial)

The code violates the statement for nk > 1: only the first level is compressed.

Proof: C08 for one level, a concrete field of two levels for the negation.

### C53 Integer fields written with extra compression read back (partial)

The code violates the statement for refused fields (read one word off) and for 16-bit values (sign extension).

Proof: C08 and C01, concrete fields for the negation.

### C54 Fourteen-word date array (proved)

Month, day, year, hour, hundredths of the hour and weekday words; the text words of the array are not modelled.

Proof: C29 and C30.

### C55 Levels encoded in the old style (partial)

All values of the ranges and all roundings, except pressures from 1099.4 mb and bands just under 10, 1, 0.1 and 0.01 mb, where the code violates the statement: 1099.75 mb comes back as the arbitrary code 100, 9.98 mb as sigma 0, 0.998 mb as 0 mb (witnesses).

Proof: intervals of the encoder are disjoint and the decoder inverts each.

### C56 Search for a block in a report (partial)

All histories of C49 and all search arguments of the documented ranges; same exclusions as C49.

Proof: layout invariant of C49; the loop stops at the first header that agrees.

### C57 Compressed IEEE fields (partial)

All fields of 16 by 16 points or more and all bit patterns, widths 10 to 32, any uninitialised arrays in the decoder, memory of znbits+6 bits an element and 16 words. Missing: widths under 10 (the code shifts by 32 or more), the smaller buffer of c_fstecr (the space test covers neither edges nor constant tiles; found by reading, no witness proved), levels after the first. Constant fields are never refused.

Proof: signs, exponents and mantissas are three streams; each is a list of tokens that the decoder inverts, and later writes keep earlier streams. The room for the mantissas is an invariant over the tiles.

### C58 Run-length coding of single bits (proved)

All lengths and arrays; any memory with room for the longest stream.

Proof: grammar of the codes as an inductive predicate: the encoder produces it, its length is bounded by induction, the decoder inverts it.

### C59 Quantised float packing (partial)

All fields with values up to 9.9e37, widths 1 to 32 equal in header and stream, both header styles, all positions, with and without missing values, any rounding that is accurate, monotone and exact on floats (rounding to nearest is proved to be one). Missing, because the code violates the statement there: a minimum below the normal numbers (witness), missing values only (witness: reads past the array), token width other than stream width as for type 129 with nbits under 16 (witness). Not modelled: strides other than 1, compact_double on values that are not floats.

Proof: bit strings of the header and of the stream (from the proofs on `compact_integer.c`), then floors of scaled differences and error bounds in rationals with roundings as parameters; the choice of the exponent keeps the token of missing values free.

### C60 Coupled coding of levels and times (partial)

All level kinds 0 to 6, all orders, any uninitialised variables, any rounding to nearest; C60_sound holds for all codes. Missing, because the code violates the statement there (witnesses, proved for all such values): kinds 7 and 21 are coded but flagged as errors when decoded and their ranges are not recognised; a range of pressures up to zero loses its second level and may turn into a range of times taken from memory; the status for a time in the old style depends on memory; values out of range are reported as coded. Also the values excepted in C48.

Proof: each value by C48 (new style code, same kind, error bound), then the order of minima and maxima survives rounding; case analysis on flags for arbitrary codes and junk.

### C61 Coding of three values with kinds (partial)

All level kinds, orders and third kinds, any rounding to nearest; C61_sound holds for all codes. Missing: zero pressure as a second or third value, which the code returns as a time or an arbitrary code (witness); the values excepted in C48.

Proof: as C60.

### C62 MD5 digests and keyed codes (proved)

All messages, cuts and keys; parts of less than 2^31 bytes (the type of the argument), 64-byte buffer in the context. The table of constants is proved equal to the integer parts of 2^32 |sin(i)|. Errors of the file in md5_file are left out.

Proof: the low halves of the 64-bit variables follow the 32-bit algorithm (ring and bitwise homomorphisms, rotation); invariant of the context over updates; lengths in two counters; the sine table by twenty terms of exp(i), powers in Gaussian integers and a proved error of 2^-50.

### C63 Names of elements and types of blocks (proved)

Outside the stated ranges the last three digits are not masked and elements take the codes of others (witness).

Proof: bit fields as quotients and remainders.

### C64 Table of elements (partial)

All tables. The code violates the statement for mrbsct: rows of the user are appended, so the table is no longer sorted; they are not found when their codes are lower (witness), and rows of the table may no longer be found (witness). Proved for codes above the table. The size of the table is not checked by mrbsct.

Proof: exchanges keep the rows; the last pass has gap 1 and is an insertion sort; bounds of the bisection.

### C65 Conversion of units (partial)

All codes that stand for less than 2^22 units of the last digit, all scales from -12 to 12, missing value of at least 2^64 in magnitude (it is 1e30). Missing: larger numbers, where two codes may give the same real (witness for longitudes to five digits). A second conversion of the same codes gives other values because the first one changes negative codes in place (witness). Overflow of the code is not modelled.

Proof: error bounds of single precision; the scale cancels, so an integer below 2^22 comes back whatever the error of the power of ten.

### C66 Positions of target levels (proved)

Up to 2800 levels, where all real indices are exact in single precision. The order is taken from the first set: sets in the other order are searched wrongly (witness).

Proof: invariant of the search: the target lies in the interval of the index, and beyond the levels already tested; all indices are multiples of a power of two with 24 bits.

### C67 Interpolation between levels (proved)

Reproduction of polynomials is proved in exact arithmetic; for rounded arithmetic there is an error bound for the linear routine only. Lagrange on one thread, see C69.

Proof: divided differences of a cubic; error factors of six operations.

### C68 Extrapolation beyond levels (partial)

The code violates the statement for two levels with both sides enabled: targets above are not extrapolated and the program is not stopped (witness). Proved for three levels or more, or one side.

Proof: the position is extreme for targets beyond the levels.

### C69 Threads of the Lagrange interpolation (partial)

The code violates the statement: firstLevel is not in the list of private variables of the parallel loop, so that threads use the levels of each other (witness), or divide by zero (witness). Proved for threads that are not disturbed and for threads with the same levels. The reads of the shared variable are taken as done in the order of the text; a compiler may do fewer.

Proof: invariant over schedules; witnesses are runs.

### C70 Named arrays (partial)

All programs, with the variable's own type in each call. The code violates the statement otherwise: gmm_get and gmm_create of another type of the same rank hand back the array of another variable (witness) or an undefined pointer (witness); the name of deleted variables can be deleted again (witness); after gmm_keys with no variables gmm_get reads outside of the directory (witness); deleted variables are still listed (witness) and use up the 2048 places (proved). allocate is taken to succeed.

Proof: simulation of a map from names to fields with a heap, for each call; induction over programs; witnesses are runs.

### C71 Shuffle of time levels (partial)

Lists of any length of which all variables exist, and two names of which one exists. With three names and one missing the code moves the wrong variables and reports success (witness). The list must not contain the temporary name of the code.

Proof: loop invariant of the shift over the map of C70; the witness is a run.

### C72 Restart of named arrays (proved)

All programs allowed in C70. The file is a list of records; its coding is the one of the Fortran run time system.

Proof: the records are a permutation of the flagged entries with distinct names; reading is a fold of additions in the simulation of C70.

### C73 Codes of 16, 24 and 32 bits (proved)

All messages and cuts; polynomials over the field of two elements from Mathlib. Little endian machine; sizes of tokens are powers of two, as the code needs. crc32 of a null pointer is left out.

Proof: the tables are proved equal to eight steps of division for all 256 indices; the state of the code is a remainder, by induction over the bytes; a burst is the product of a power of X, which is prime to the generator, and a polynomial of low degree.

### C74 Table of grids (partial)

Proved for c_ezgdef_fmem with any code function: which calls share a number (exactly), and the statement itself if no two calls of equal code differ only in the reference or in signs of zeros; with releases if codes differ and only the last number is given up by its last user. The code violates the statement otherwise, each with a witness that holds for all grids of its kind: a release in the middle lets the next definition overwrite a grid in use; a failed search counts as a use; grids of a file with other axes but equal numbers of records get the old grid; with ig4 not zero the grid is never found again; two polar references with swapped coordinates make the search endless; equal codes hide the reference; a second definition of a grid # reads outside of its axis. Type U is left out.

Proof: invariant of the table: chains are the numbers of equal codes in order, found by one walk; induction over the calls. With releases, the table refines a list of grids with numbers of users.

### C75 Pairs of grids (partial)

The table is right after any calls of c_ezdefset that do not fail. The statement is proved for fewer than 63 input grids of any numbers (c_find_gdin with conditions), and for any calls with numbers below 127. The code violates it otherwise, each with a witness: c_find_gdin uses the size of the first table after growth; it reads outside of the table for the last place; the number of a grid is stored as an index; growth copies outside of the new table; ez_find_gdin_in_gset wraps at 127; a search without pairs uses a null pointer; 2046 input grids always fail (C75_limit).

Proof: invariant of open addressing (no empty place between the place of the number and the own place, and one empty place somewhere), for insertion, search and the copy into a larger table.

### C76 Interpolation on a regular grid (partial)

Exact arithmetic on rationals. The bicubic kernel uses 1/6 and 1/3 in single precision, so polynomials are reproduced up to 2^-24 of the largest value (2^-20 in the first and last cells); a constant field is not reproduced at the last point, even after rounding to single precision (witness). Between the rows -1 and 0 the bilinear kernel extrapolates (witness). With three columns the bicubic kernel reads outside of the array (witness).

Proof: cells from clamped integer parts; the bicubic kernel is the Lagrange cubic plus an explicit error of the two constants, bounded cell by cell; algebra by `ring` and `nlinarith`.

### C77 Interpolation across the seam of a global grid (partial)

Exact arithmetic on rationals. For the bicubic kernel on a grid whose last column repeats the first the code violates the statement in the cell between columns ni-2 and ni-1 (witness, and the error for all fields); proved elsewhere.

Proof: the remainders are the columns on a circle (case analysis on the position), the integer part of the shifted position agrees with the clamps.

### C78 Interpolation on a grid with irregular axes (partial)

Exact arithmetic on rationals. The code violates the statement: in the first and last cells of an irregular axis the coordinate is taken with the spacing of the next cell, so border points are wrong (witness); the bilinear kernel that wraps never uses the first row (C78_first_row) and divides zero by zero at the seam if the second coordinate is zero (witness); for a global axis that does not start at zero the inverse distances of the first cell are wrong (witness). Proved elsewhere. ez_irgdint_3_nw evaluates its statement functions in single precision, which is not modelled.

Proof: divided differences of a cubic, step by step; the kernel that wraps is compared column by column with the plain one on the widened axis.

### C79 Socket loops (proved)

The schedule of outcomes of the system calls is a list, over which the theorems quantify.

Proof: induction over the list of outcomes of the system calls.

### C80 Exchange of a record between two programs (proved)

Two processes and two FIFO channels, one byte per step; steps of different processes commute, so one terminating execution determines all. Lengths below 2^31 bytes.

Proof: diamond property of the steps of the two processes, hence all executions end in the same state; one execution followed phase by phase; the swap macros bit by bit.

### C81 Exchange of a record that is refused or interrupted (partial)

Proved: bounds and sizes for every peer and every failure if a maximum is given; the connection stays usable after a record of another size within the maximum; the array of the writer is kept if 0 is returned. The code violates the rest: after a record above the maximum its second tag stays on the connection and the next record is lost (C81_oversize, C81_next_lost); without a maximum nothing bounds the store; on different tags the buffer of the caller is freed; a missing tag is an uninitialised value; the array of the writer stays byte-swapped when the transfer fails. write_record returns 0 for refused records.

Proof: the same phases for refused records; for faults, the set of all outcomes of a process with every operation allowed to fail.

### C82 Time-outs of channels (partial)

Proved for channels registered by mgi_open and time-outs above 3 (the opposite of values up to 3 is returned: 1, 2 and 3 become negative). Not so for descriptor 0 (an unused entry is found), for channels that are not registered (lost at the next opening, and stored outside a full table) and for descriptors used again.

Proof: the first entry of the channel splits the table.

### C83 Table of channels (partial)

Proved: names (with one character read beyond a name without blank, C83_overread), numbers, openings for writing. The code violates the rest: numbers are not given back and failed calls count, so that mgi_term looks outside the table after 24 calls (C83_term); a channel opened for reading is connected in mode write if the first attempt fails (witness).

Proof: induction over the loop of strcopy and over the sequence of calls.

### C84 Fields are read back as they were written, for each data type (partial)

From the request through plan, record and work field to the array of the reader, for types 0 to 8 (not the compressed ones: C06 to C09, C57; not doubles packed by compact_double); xdf_stride 1. The code violates the property for bytes and text with less than 8 bits, characters on several levels, doubles stored as type 1 with 31 or 32 bits, complex fields without packing (witnesses).

Proof: the contracts of the packers (C01-C05, C11, C41, C59) with the lemma that unpacking looks only at the bits of the record; case analysis of plan.

### C85 The entry tells the reader how missing values were coded (partial)

Proved for densities other than 0 and 1 when no compressor refuses the field. With density 0 or 1 the values are coded and never decoded; when a compressor refuses, the flag is lost; type 801 is coded with the wrong element size (witnesses).

Proof: the low four bits of the type are kept by plan, or the type is one of those packed as another real type.

### C86 Copies of records (partial)

Type, width, flag and data words for types 0 to 7 and the compressed ones (whose records are equal); reading again is proved for types 0, 2, 4, 5, 7 (C86_copy) and 1, 6 and 3 of one level (C86_packed). Complex records lose half of their words (witness).

Proof: number of words of an image against the words of a record; the same lemma as C84 for reading.

### C87 Compressed reals are read back as uncompressed ones (partial)

Type 134: equality with type 6 for every field of one level whose record fits the work field of the reader. Type 129: the precision of type 1 for 16 bits and one level. The code violates the property: a record of type 134 whose compression gains little exceeds the work field (C87_overrun_witness); type 129 with fewer than 16 bits is read with the wrong token width (C87_narrow_witness); levels after the first are lost (C87_levels_witness).

Proof: outcome of the compressor (C08, with the exact number of words that the decoder needs); both unpackers depend only on the 16-bit tokens; arithmetic of the sizes.

### C88 Units are given to one file at a time (partial)

Everything holds after the first call of c_fnom, except that some refused calls keep the unit: scratch names with a slash and @ names found nowhere. The first call of c_fnom forgets the units opened by c_waopen2; a full table is read past its end; c_waopen2 of a unit above 999 overflows a name; unit 5 cannot be closed after its use as standard input. Each has a witness.

Proof: invariant of the table (distinct units) by induction over calls; each call changes one entry only (locality); scan of the free units.

### C89 A file is opened as its type asks (partial)

R/O and OLD are respected for names that do not end with a blank; with one the file is created and open for writing (C89_blank_witness). Remote files are not modelled.

Proof: the attributes as a chain of conditional settings, solved field by field; case analysis of the search for the name and of the opening.

### C90 Each open file has its own slot for word addressing (partial)

The correspondence of slots and open files holds for programs that call c_waclos2 before c_fclos, find the parts of archives they ask for and open files with new descriptors. c_fclos alone leaks the slot, up to reading past the table; the offset of a part of an archive stays in the slot for the next file; a part not found leaks slot and descriptor. Each has a witness.

Proof: invariant by induction over programs that respect the protocol; the leak by induction over the number of openings.

### C91 The part of an archive that is asked for is the one read (partial)

The search finds the right part for all well formed archives. The position returned is always the end of the file (C91_end_witness, for every archive and part); the length of parts with 64-bit sizes is wrong (C91_length_witness); damaged archives make the search endless (C91_loop_witness) and long names overflow the buffer (C91_name_witness).

Proof: one turn of the loop for each form of record, then induction over the parts of the archive.

### C92 Streams return what was written (partial)

Holds for systems that move whole words, in any pieces. When a part of a word is moved the buffer pointer is rounded down and words are damaged, in reading and in writing (C92_read_witness, C92_write_witness); c_sqputw returns the size of the last piece (C92_count_witness).

Proof: loops over an arbitrary split of the transfer, by induction on the bytes left; refinement of a file with a position.

### C93 A direct access unit has one pending transfer (partial)

Holds for all sequences of calls for units other than 0 and other than the value of the word after the table. That word is compared with the unit (C93_after_witness); unit 0 is refused (C93_zero_witness); the 1025th pending transfer writes after the table (C93_full_witness).

Proof: refinement of the set of pending units by induction over the calls; the full table by induction over units.

### C94 Editing a record changes the descriptors given and no others (partial)

Holds for values within the width of their fields, of a record that exists, and of the directory only. Values are cut without notice (C94_range_witness); ni, nj, nk and datyp are taken and ignored (C94_ignored_witness); the page after the last is accepted (C94_page_witness); deleted records and files opened for reading are edited (C94_deleted_witness, C94_readonly_witness). The copy of the descriptors in front of the data keeps the old values.

Proof: the descriptors of the edited keys field by field; for the file, refinement of the list of records after closing and opening.

### C95 Search masks hide exactly the masked bits and characters (proved)

As in C18 the label is compared only when one of its first ten characters is given. The documentation says that a mode of 2 sets the masks; the code returns them for every mode other than 0 (C95_mode_witness).

Proof: induction over the calls for the masks; the search by bitwise reasoning on the packed words.

### C96 A level queued in both codings is found in either (partial)

The first record that passes is found in all linked files (C96_first), and ip1 in either coding is found (C96_all). Tables of ip2 are tested only together with ip1, those of ip3 only with both (C96_ip2_witness); only the first level queued can be searched (C96_second_witness); for a level out of range any record is found (C96_invalid_witness); 26 levels overflow the table (C96_room); far exponents overflow 64 bits (C96_overflow_witness); fstsui goes on with one coding only (C96_sui_witness); a refused search leaves the tables set (C96_stale_witness).

Proof: the loop of searches by induction over the records left to find, the target being replaced by words that agree with it on the mask; scaling of mantissas over the rationals.

### C97 The header of a BURP report comes back as given (partial)

Names of letters, digits and usual signs come back in capitals and padded to nine. Dates of the 1900s come back without century unless ENFORC8 is on (C97_century_witness); dates before 1900 or after March 2700 come back as others (C97_dates_witness); values and block counts that do not fit are cut (C97_width_witness).

Proof: field by field; the coding of dates through century, year, month and day.

### C98 A search for reports finds those that agree with what is asked (partial)

By name, type, place, day and hour; the minutes of the time asked for are ignored (C98_minutes_witness). A name of one star is not wild (C98_star_witness).

Proof: the masked comparison of words split into fields, dates by injectivity of their coding, then the sweep of C19.

### C99 The size in the header of a random file tells whether it was closed properly (partial)

Fewer than 10^9 operations in the history; a file whose size is a multiple of 4 GiB is reported as empty (C99_empty_witness).

Proof: invariant over histories: every write ends inside the size then held by the header; the fields of the header no operation changes; the header on disk survives a session (C23).

## 5. Findings in the code

Found while reading and proving. Those marked W are proved as theorems with concrete inputs (names ending in `_witness`) or in general.

**Integer packing, compression**

* C01: the last token needs one readable bit behind the stream (W).
* C04: with a header, automatic width loses the top bit of 32-bit data at unaligned offsets; constant arrays cannot be decoded (W).
* C52: `armn_compress` ignores nk; only the first level survives (W).
* C53: a refused field of type 130 is stored one word further than it is read; 16-bit values come back sign-extended (W).
* C57 (all by reading, none proved as a witness): `c_armn_compress32` ignores nk, so only the first level is stored; widths up to 9 give shifts of 32 or more; the space test follows only tiles that are not constant, so edges and constant tiles may pass the end of the buffer of `c_fstecr`; the size of the exponent stream is tested after it was written; DIFF_SIGNE_STREAM is decoded as runs (unreachable, since runs never take more than the limit); the length of the mantissas is stored as that of the signs (never read); early returns leak memory; ni*nj*znbits overflows int.
* UNCOMPRESS copies 1+ni*nj/2 words, possibly one more than the field.
* C09: a 32-bit slice at a word boundary returns the next word; a slice of width zero reads too far (W).
* C10: 5 5 5 7 comes back as 5 7 (W).
* C11: reads IFLD(NINJ), one past the field (W).
* C12: overflow from six characters on, padding with '0', strings of different lengths collide (W).

**Standard files**

* C15: an open sequential file makes file indices over 127 ambiguous (W).
* C18: characters 11 and 12 of a label are ignored if the first ten are blank (W).
* C34: stamps ending in 8 or 9 come back 2 too large (W).
* C25: words 0 to 3 of a page have no checksum; a mismatch is only logged (W).
* C27: rewriting does not compare the date; blank names are wildcards (W).
* C28: a search resumed by handle on a page of a linked file uses an unset pointer; the walk to the third and later linked pages is wrong (W). Adding a page after linking breaks the link; linking a file twice makes searches endless; over 4096 pages overflow the handle.
* `c_xdfput`, `c_xdfdel`, `c_xdfget` accept a record number equal to the number of entries. `add_dir_page` clears half of the entries.
* `c_xdfloc2` without mask never advances. `c_fstinl` with nmax 0 is off by one. Flags of ip1..ip3 in `c_fstinfx` are nested. `c_fstnbr` may return an old count.
* Opening for reading accepts a half-closed file. The test `wdaddress == 0` is never true; more than 1024 pages are not noticed. `rewind_file` mixes units.
* `deet*npas` overflows int.

**Dates**

* C30: mode 2 returns extended hours for 1901-01-01 01Z (W).
* Modes 3 and 2 do not check minutes and seconds; mode 1 does not check month, day and hour of old stamps; mode -6 checks nothing; mode 6 accepts one value more than mode -5; dates of more than 8 digits are reduced.
* C32: without leap years, going back from the end of 28 February of a leap year to an earlier month is a day off (W). 360-day calendar: results outside 1900..2235 are not initialised (W); landing on 1901-01-01 01Z is wrong (W).
* The last minute of 2235 loses its minutes; going back before 1980 from a date with minutes fails; `difdat` with -1 and an extended stamp returns garbage; hours of `difdati` are single precision.

**Whiteboard**

* C35: an array put over an 8-byte scalar or a string takes value bytes for a size and overwrites its neighbours (W).
* C35: contradictory options on a large variable leave an empty page which hides others (W).
* C37: a refused put makes the old value unreadable (W).
* A scalar get of an array returns its descriptor. `WB_REWRITE_AT_RESTART` has no effect. An uninitialised variable stops the locking of later ones. A truncated checkpoint makes reload endless. Names with NUL match as prefixes. Lock names over 27 characters are cut. String copies read one byte too far; the checkpoint name is copied without room for its NUL.

**Word-addressable files**

* C39: requests starting at a page boundary not in the cache access memory in front of the page (W); a write ending one word before the end destroys that word (W); any read with two pages stops the program (proved in general).
* C40: holes of more than 512 words contain stack memory; a read two words past the end stops the program or returns -1 (W). Writing zero words past the end extends the file.

**Float packing, missing values**

* C59: type 129 with fewer than 16 bits writes tokens of 16 bits and reads them with the width of the header (W); a minimum below the normal numbers comes back as zero or without its leading bit (W); with missing values only the search leaves the array (W). The mask 0x00000111 of a zero minimum was meant to be binary; messages print a string with %f; `compact_double` keeps the missing tag in a float.
* C41: zeros and subnormals come back wrong if the largest exponent is below 24 (W). The unpacker reads one word past an even stream.
* C42: the first element is never restored (proved); the substitute of signed shorts and bytes is -1; the substitute may equal the flag, or be less than the maximum for negative constant fields; one and two bits are too few for the float packer (W). Type 5 with 64 bits is encoded as double and decoded as float.

**Selection, jars, sorts, grids, levels**

* C43: open ranges of ip accept every level of the kind (proved); ig4 is compared with ig2; a refused call drops the date criterion; a refused date list leaves a set satisfied by all records; negative stamps are open ends; level zero under another code never matches (W). Set numbers are not checked; `C_select` before `C_filtre` uses index -1.
* C44: the zero fill precedes the bound check, so positions more than one past the end write outside the jar (proved).
* C45: `ipsort` of no elements writes index[0] (W).
* C47: very negative longitudes loop (in practice) for ever; '+' descriptors are not stable.
* C63: `mrbcov` does not mask the last three digits, elements with CCC over 255 collide with others (W). C64: `mrbsct` appends rows behind a sorted table that is then searched by bisection: rows are not found, also rows of the table itself (W); the size of `TABLEAU` is not checked. C65: `mrbcvt` changes negative codes in place when it decodes, a second call returns other values (W); codes of high accuracy longitudes do not fit in single precision (W); values of elements that are not in the table are left as they were instead of set to -1.1E30 as documented.
* C66: the order of the levels is taken from the first set (W). C68: with two levels and both sides enabled nothing is extrapolated above (W). C69: `firstLevel` is shared by the threads of `Interp1D_CubicLagrange` (OpenMP build), results depend on timing (W).
* C70: the type is not checked by `gmm_get`/`gmm_create` (W: the array of another variable, an undefined pointer); `check_directory_entry` is always called with key 0 and reads `directory(0)` after `gmm_keys` on an empty directory (W); deleted entries keep an ordinary name (W), are still listed (W) and never reused; the ordinal in the key is a 32 bit integer shifted by 32; the preprocessor test `DATATYPE == real` is true for every type; `array_rank` is not initialised when all `n` are zero; `gmm_delete` deallocates arrays of the caller. C71: with three names or more and a missing variable `gmm_shuffle` moves the wrong ones and returns 0 (W).
* C60: DecodeIp flags levels of kinds 7 and 21 as errors and does not recognise their ranges (W); a pressure range up to 0 is lost, with `kind(3)` used unset (W); `kind(2)` is used unset for old style times (W); EncodeIp reports success for values out of range (W). C61: zero pressure as third value becomes an arbitrary code (W).
* C48: values in (-4.9e-12, 0) become positive (proved); 999999.5; indices over 4.8e8; undefined kinds are encoded (W). C55: 1099.75 mb, 9.98 mb, 0.998 mb (W).
* C50: the single-precision midpoint loops for ever in tables of 2^24 entries (W).

**Grids**

* C74: releasing a grid which is not the last one makes the next definition overwrite a grid in use (W), drops the whole chain of its code and leaves links to the cleared slot. A search that fails raises the count of users of the last grid of the chain, which is then never freed (W).
* C74: `c_ezgdef_ffile` does not compare axes: other records with the same numbers and parameters get the old grid (W). The argument ig4 is stored as zero, so that with another value each call makes a new grid (W). If only the parameters of the reference differ and the codes are equal, `c_ez_findgrid` does not end; the code is an exclusive or of words, so that exchanged parameters of a polar reference are enough (W).
* C74: the type of the reference is not compared (W). For type # the axes are stored with ni and nj elements and compared with ni*nj (W).

**Pairs of grids**

* C75: `c_find_gdin` uses `primes[cur_log_chunk]`, which is always 127, for tables that have grown (W); it starts at the place after the last one when the number belongs to place 126 (W). `c_ezdefset` stores the number of the grid in `idx_last_gdin`, which is used as an index (W). `reallocate_gridset_table` does not wrap after its first step (W) and reads `primes[13]` at 2046 pairs. `ez_find_gdin_in_gset` wraps at 127 (W). Regular grids start with `idx_last_gdin` zero, so that a search before c_ezdefset uses a null pointer (W).

**Horizontal interpolation**

* C76: `cubic8.cdk` writes 1/6 and 1/3 as default (single precision) constants in double precision functions: relative error 2^-26 per direction and step, visible in the last bit at the last grid point of a constant field (W). `ez_rgdint_1_nw` truncates negative positions towards zero (W).
* C77: `ez_rgdint_3_w`, line 87: with wrap=1 a fourth column equal to ni is replaced by 2 also when it was not wrapped (position between ni-2 and ni-1) (W). `ez_rgdint_3_wnnc` is right there.
* C78: `ez_irgdint_3_nw` and `_w` compute the coordinate in the first and last cell from the neighbouring cell (W). `ez_irgdint_1_w` line 34 uses j1+1 as lowest row, so that the first row is never used (C78_first_row), and line 49 assumes an axis that starts at zero: 0/0 if ax(2)=0 (W). `ez_nwtncof` line 141: `ax(1) - (360.0 - ax(ni))` should be `ax(ni) - 360.0` (W). `c_gdinterp`: `c_gdcompatible_grids` never looks at the input grid (the first switch always returns); `gdst_lats` is not freed for Z and G grids.

**Gossip and MGI**

* C81: `read_record` swallows the elements of a record that is too long but not its second tag; the next record, though right, is lost (theorems). When the two tags differ it calls `free` on the buffer of the caller and leaks its own (condition inverted, line 2175) (W). `get_int32_from_channel` does not report failure; its value is then uninitialised, also as a length to store (W). With `maxlength` 0 nothing bounds the store into the buffer of the caller (W). `write_record` ignores a refusal and returns 0, and leaves the array of the caller byte-swapped when the transfer fails (theorem).
* C82: time-outs of 1 to 3 seconds come back negative; descriptor 0 has time-out 0 by default; the time-out of a channel not yet opened is lost, and stored outside the table when it is full (W/theorem).
* C83: `strcopy` reads one character beyond a name without blank; after 24 calls of `mgi_init` (failed ones count) `mgi_term` looks outside the table; a channel opened for reading is connected in mode write when the first attempt fails (W).

**Data types of standard files**

* C84: unsigned bytes with fewer than 8 bits are packed with that width and read with 8; text (type 7) with fewer than 8 bits gets a record that is too short; characters (type 3) of several levels: only `ni*nj` are stored; doubles with type 1 and 31 or 32 bits are stored as raw 32-bit halves; complex fields with density 0 or 1 are stored as type 0 with half of their words (W).
* C85: the flag of missing values is lost when a compressor refuses the field, though the values were coded; with density 0 or 1 they are coded but type 0 is not decoded; type 801 with the flag is coded with 4 bytes an element though doubles are packed (W).
* C86: complex records copied as images lose half of their words (W).
* C87: line 1340 counts 16 bytes before the header of type 134 instead of 4, and the work field of line 2193 is sized from the dimensions: with 4 x 4 values on 10 bits c_xdfget2 clears 144 bytes of a field of 143 (W; the model counts whole words). Type 129 with fewer than 16 bits does not come back (W). Levels after the first are lost (W).
* Not modelled: `buf = workField + 1` of c_fstluk moves by one byte, so that words are read at odd addresses; error returns of c_fstecr and c_fstluk leave `xdf_short`, `xdf_byte`, `xdf_double` set for the next call; type 130 with bytes above 127 sign-extends them before compression (`memcpy_8_16`); a refused field of type 130 is packed by `compact_integer` one word too far, though it is read from the first word, and as 32-bit elements though it may be shorts; `remap_table` is filled without a bound.

**Files and units**

* C88: a scratch name with a slash, or an @ name found in none of the three places, is refused but its unit stays taken (W). The first call of c_fnom clears the table, including units opened with c_waopen2 (W). A full table is read past its end (W). c_waopen2 writes names of units of four digits past a buffer of ten bytes (W). After unit 5 was used as standard input, a file on unit 5 is never closed (W). reset_file_entry does not reset the attribute pipe.
* C89: R/O with a name that ends with a blank: existence is tested without the blank, opening is done with it, and the file is created, open for writing (W).
* C91: line 1844 takes the position with SEEK_END: the offset of every part is the end of the archive, so that nothing of it can be read (W, for all archives). subfile_length of records with 64-bit sizes is computed from the lower half of the total size (W). A negative 64-bit size of data makes the search endless (W). Names are read to a buffer of 256 bytes without test (W).
* C92: c_sqgetw and c_sqputw advance their pointer by whole words: a piece of 2 bytes damages the data, without error (W). c_sqputw returns the words of the last piece (W).
* C93: c_readda and c_writda compare the unit with the word after `dastat` in every successful call (W); free places hold 0, so unit 0 is always pending (W); with 1024 pending transfers the next one writes after the table, the test against it being inside the loop that ends there (W).
* C90: c_fclos of a word addressable file without c_waclos2 keeps its slot; the 1025th opening reads past the table of slots (W). The offset of a part of an archive stays in the slot and shifts all transfers of the next file in this slot (W). A part not found in its archive leaks slot and descriptor (W).

**Editing and masks**

* C94: c_fst_edit_dir_plus tests no range: ip1 = 2^28 + 5 becomes 5 (W); it takes ni, nj, nk and datyp and ignores them (W); its test `pageno > npages` accepts the page after the last (W); it edits deleted records and files opened for reading, whose directory the close then writes (W). The descriptors in front of the data are not edited.
* C96: c_fstinfx tests ip2 tables only when ip1 has one, ip3 tables only when both have (W); ip_is_equal accepts only the first level queued as target (W); ip1_all of an invalid level returns a negative code, which finds any level (W); the tables overflow at the 26th ip1_all, the test for room being after the store (W); `mantis *= 10` overflows when the exponents are far apart (W); fstsui after such a search ignores the other coding and the mask of c_fstmsq (W); the tables survive a search refused for its unit (W).
* C95: c_fstmsq gets the masks for every mode other than 0; its comment documents 2 as another way to set them (W).

**File types (wkoffit.c)**

* C99: the length is kept in 32 bits, so a file of 4 GiB (or a multiple) is VIDE (W), and c_fstouv (fstd98.c 2843) then creates a new file over it unless the unit has the OLD attribute.
* C100: the buffers are not initialised and the results of fread not tested: the type of a file shorter than 124 bytes, or of one whose first word points past its end, depends on what the stack held (W). The signature tests are not exclusive: a GRIB message with the bytes STDS at 12 is a standard file (W).
* isftnbin: a first word of 0x7ffffffc or more overflows; a negative one makes fseek fail and the word is read wherever the stream is.
* Image formats (not modelled, read only): isrrbx exchanges the bytes of the whole header before comparing it to a character string, so it never matches on little-endian machines; issun looks at ras_maptype where ras_type is meant; the search of `PLOT$Z` in get_mode does not look again at the character that failed, takes byte 255 for the end of the file and may read before its buffer; mutant_kmw is never reset; isgif, isrrbx and issun return without closing the file when it is short.

**Sequential files (xdf98.c, fstd98.c)**

* C101: c_xdfput fills the cluster with memory after the caller's buffer (c_fstecr allocates 512 bytes more for that). A new file has no end mark until the first write: c_fsteof gives 0 (W).
* C102: `seq_bof` of a created file is the head of the file, so after c_fstrwd the first c_fstskp meets the header and fails (W). On files of 1989 both loops of c_fstskp compare with the wrong sign and run zero times (W). Going back to a mark is an error, unless at most two marks and nothing else come before.
* C103: c_fstapp stops at the first logical end (W).
* C104: next_match ends at any type of 112 or more, the test for more than 127 that follows is never reached, so a deleted record (255) hides the rest of the file (W).
* c_fstweo stores a word address in `addr` where records hold 64 bit units, and leaves `lng` of a physical end unset (an argument of the model). `fsiz` of a sequential file omits the postfixes. Marks break the alignment of clusters, so handles of later records of a file over 32 MB are wrong (C16). A search after a handle stops on the postfix when fewer words than the keys are left.

**Grid transformations and winds (src/interp)**

* C105: ez_crot divides by zero for equal or opposite points, without a message (W).
* C106: the values set for the pole in ez_vllfxy.inc:63-66 are replaced at once; the longitude there is 90 - dgrw (W). One correction by 360 does not bring the longitude into range for orientations beyond 180 degrees (W); c_gdllfxy repeats the correction for values above -360.
* C107: c_gduvfwd_orig on a grid of type E exchanges the arguments of ez_gfxyfll (gduvfwd.c:47): it rotates uninitialised memory, computes the components at that position and writes over the caller's latitudes and longitudes, which for c_ezuvint are those kept in the grid table (W). The comments of ez_gfxyfll.inc:40-46 describe the arguments in that wrong order.
* C108: with axes and ig2 = 1, c_gdllfxy counts rows from the north and c_gdxyfll from the south: y comes back as nj + 1 - y (W). Axes of a Gaussian grid over the north are taken from the south by c_gdllfxy (W).
* C108: a grid with axes that starts west of Greenwich accepts longitudes in (-180, 180] only; one that continues beyond 180 degrees loses its last columns (W). For L, a negative ig4 is brought to [0, 360) in one direction only (W).
* C109: gdll turns the rows of A and B grids for ig2 = 1 and gdllfxy does not; with axes it is the reverse (W). For northern Gaussian grids gdll is right and gdllfxy gives southern latitudes (W).
* C110: ez_calcxy passes the longitudes kept with the target grid to ez_ll2rgd and ez_ll2igd, which correct them in place although declared as input; later interpolations to that grid from other sources get these longitudes (W), and so does gdll. c_gdxyfll does the same to the caller's array for grids with axes.
* C113: with interp_degree average or sph_average, points near the poles get memory that was never written: ez_corrval_aunord and ez_corrval_ausud have no such case (W).
* C113: the corrections put the pole a whole row beyond the last row; on A grids it is half a row beyond, and the value jumps there (W). On B grids the repeated meridian counts twice in the mean (W).
* C113: for northern Gaussian grids ez_corrval_aunord reads latitudes at the wrong index (W); truncation toward zero leaves points between the first two rows of an expanded northern grid uncorrected (W); Z grids with 358 degrees of longitude are taken for global whatever their latitudes (W).
* ezsint.c:121-124: polar_correction = no also turns off every extrapolation option, abort included. ez_corrval_aunord.c gives '#' grids the kernel for regular axes in the cubic case.
* C114: ezgetopt answers error for the averages that ezsetopt accepts, does not know the French names correction_polaire and use_1sousgrille, and cannot tell neutral from the degree it copied (W). ezsetval answers 0 for unknown names. The Fortran ezgetopt may write a zero one byte after the caller's string.
* C115: gdxyfll.c:192-205 compares positions (from 1) with the limits of the mask (from 0); a point up to one cell outside yin can be taken from yin (W).
* C116: after an interpolation from a pair the averages are replaced by nearest, and the extrapolation value by 1 (W).
* C117: with polar_correction no, or with a mask made while it was no (it is kept), nothing is taken from yang; ezsint from a pair to itself copies half of the field (ezsint.c:56-60) (W). c_gdxysint does not free its copies.
* C118: c_ccard.c:295-334 has no way out of its loop when a key has too many values (`-a=1:2` with one key `a`): it prints for ever, or reads beyond the table; c_ccard.c:84 never sets `npos_interne`; c_ccard.c:161 and 203 use index -1 (W).
* C119: ibm32_ieee.c:39-58 leaves zeros with an exponent as they are; `0x41000000` (zero) becomes 8 (W).
* C120: ccard.F90:316-325 returns `--` as a key called `-`: the first positional argument is replaced by its `def` (W), or the call fails when no key is called `-`; ccard.F90:138-139 an argument that belongs to no key goes to key 1 when none is called `-` (W).
* C121: ezget_mask_zones.inc:31-53 the zone 5 is always overwritten; :37 reads the mask outside the grid on the last row and column (W).
* C122: ezget_mask_zones.inc:92-97 the last row and column of the *output* are skipped, and the point `ix`, `iy` is not tested, so points next to a missing point are kept (W).
* C123: lorenzo_mask_fill.inc:64 does not fill a row whose first value is in the last column; :58 reads outside the mask when there is one column (W).
* C125: ez_applywgts.inc:38 `j = 1 + k / ni_dst` is one too high for every point of the last column, and outside the arrays for the last point (W); :27, :32 `outfld` has the size of the input.
* C126: ez_uvfllc2d.inc:112 `v = abs(u)` should be `abs(v)` (W).
* gdinterp.c:48-69: the test of the input grid in c_gdcompatible_grids is never reached.
* C127: ez_avg.inc:131 (ez_avg_sph.inc:148) adds a tile with a negative weight in the first row, so averages leave the range of the field (W); :171 begins the last row at the point and not at the cell (W); `int` leaves out the first tile of cells that begin below zero (W); without extension the field is read outside (W).
* C128: readlx.F90:1199-1202 compares the absolute value of 32 bits with 2147483647, which is never exceeded, so reals are computed as the integers of their bits (W); :1181-1185 counts + before a number as an operator of two operands, so (+5) is an error (W); NOT is refused before its operand and taken after it (W); a sign is applied before ** and ** goes from left to right (W); :1853-1856 a parenthesis too many ends the expression without applying the operators that wait (W); :1821 cuts the address of a variable to 32 bits.
* C129: QLXTOK does not keep that a text was in quotes, so '+' in quotes is an operator (W).
* C130: the condition ABS(A(I)+C(I)) <= 1 of rossr3.f:54-57 does not prevent a division by zero (W); C(M), said not to be used, is set to 0 (rossr3.f:96) (W).
* C132: D1 and DN (d1.f:73-77) are said to be of fourth order but the derivative of x**3 is wrong (W); the formula is that of a parabola.
* C134: set_user_lock.F90:23-35 reads and writes the lock in separate steps without a critical region, so that two threads may both get it (W); moduledate.f90 relies on it. At a depth of 128 the count is lost and another thread gets the lock (W).
* C135: with seeds beyond 161803398 `mj` is negative (nr_rand.f:46-47) and numbers leave the range (W); a seed that is not negative is ignored after the first number (C135_ignored).
* C136: the checks of the window (mwerms.f:80-82, and the same in corcof.f and s1scor.f) do not see a corner before 1 (W).
* C139: c_xdfdel and c_xdfput change the counts, the mark and the data of the file of the handle and not of the file the page belongs to (xdf98.c:1034-1041, 2302, 2325; `true_file_index` is used only in reading): a deletion through a link is not saved if the other file is not changed otherwise, both counts are wrong (C139_delete), and a record rewritten in place overwrites the first file at an address of the second (W). A page added to a linked file cuts the link while `link` says that there is one (C139_growth).
* C140: a field of one column or row is read at index 0 (bilin.f:66-67) (W); COUPE with one point divides by zero (coupe.f:62) (W); once a point is outside, all those that follow are 0 (C140_begin).
* C143: qgblukig leaves the loop at the first record with the code, whether the centre is the one asked for or not (igaxg95.F:161-169), so that `ig2` has no effect (W). igaxg95 sets `ig3` from the list even if no record was found (igaxg95.F:94-97) (W). qqqlen does not end on a blank string, and reads `str(0)` (igaxg95.F:296-301).
* C145: `init` is never set in dmms.c, so each allocation empties the list (127-141): hpcheck sees only the last block, none after a release, and memoirc always returns 0 (C145_hpcheck_last_only, C145_free_empties, W); before the first allocation hpcheck reads at NULL (W). A refused allocation leaves `dejala` set (116-119), so that the next call exits (C145_refuse). The size is an `int`: 2**30 words get a block of one item (351) (W). INITMEM counts 4-byte words but writes 8-byte ones (204-206) and destroys the guard of each block of four items or more (C145_initmem). ca_deallc reads 32 bytes before the address (414), which lie before the filled words whenever `ptbloc + 48` is aligned: always for fpw2 up to 4 (C145_ca_free). bkcheck goes back 16 bytes instead of 32 (477) (C145_bkcheck).
* C146: set_appl_var compares only as many characters as the new name has (appl_var.c:49), so that setting AB replaces ABC (W); get_appl_var ignores case, set_appl_var does not (W); the strings have no NUL (71-76) (W); c_get_appl_var writes a blank behind the end of the variable in each call (110) (C146_one_past) and before its beginning if the value is too long (C146_too_long); the 1024 entries are not checked.
* C147: for the value 2**31-1 QRBNBDT announces 32 bits but returns NBIT unchanged (qrbnbdt.F90:134-143) (W); NBIT above 32 reads behind SUPVAL (133) and ABS(-2**31) overflows (111) (W).
* C148: the index is not reset for a single value in brackets (c_env_var_cracker.c:288-291) (W); strtok works on the string of getenv itself, so that a second call sees the first variable only (208-217) (C148_second); parentheses are tested in reverse, `)x(` (120-121) (W); a value of one quote, of commas only, or an option of semicolons only is a fault (86, 297, 217) (W); a variable whose brackets do not match ends the work without a message (276-278) (W).
* C149: fstring_to_cstring does not count down while it removes blanks (FC_string.c:69-73), so that an all blank string is read and zeroed before its beginning (W); ftnStrLen of length 0 starts at character 2^32-1 (ftnStrLen.c:11) (W).
* C151: for a northern field and J of 2*LJ-1 or more IDXES returns row 0 (idxes.F:131-132); for a southern field all places of the northern hemisphere get the message of a wrong argument (82-83) (W).
* C152: fread16/32/64 exchange the whole buffer also after a short read (fread32.c:56-61) (W); the count of numbers is an int (82) (W).
* C153: ftn2c_string_copy of an empty or blank string reads before it (ftn2c_helper_c.c:41) (W).
* C154: array_from_file cuts a larger file and returns nw where the comment promises nw-2 (array_file.c:31, 52) (W).
* C113: where a Z grid has a row at the north pole, ez_corrval_aunord pairs the latitudes of rows j2-3..j2 with the values of rows j2-2..j2 and the pole (ez_corrval_aunord.c:60-66): a field which is the latitude itself is not reproduced (C113_pole_row_witness).
* C155: f_def_84bitkey passes ip1 where ig1 belongs (c_fstgrib_helper.c:33) (W).
* C156: prog_filename accepts results of 16 characters, where the number is cut without an error (prog_filename.c:106, 186); minutes without seconds are dropped without an error (151) (W).
* C157: a second listing returns flag 0 and lists nothing; a blank first name makes each call read the file again (constnt.F90:147) (W).
* C158: a truncation other than 1 and 2 is taken for 1 without a message (C158_stop).
* C159: for a row of length 1 ALPNM2 jumps over the change of its place and product (alpnm2.F:53), so that rows of one value are all stored at the first place (W).
* C160: c_ez_calcarea takes angles by the arc sine, so that obtuse angles are taken for acute ones and half of an area is lost (ez_calcdist.c:233-234) (W).
* C161: the number of columns does not take the first block into account (mrbprml.F90:86), words after the headers are then given as blocks (W); ERNPRM is returned positive like a count of 40 blocks (78).
* C163: points less than a step behind the last column or row keep what was there (ez_xtrap.inc:58-60) (W); the extreme codes replace points within the grid too.
* C164: the writes fail for names of 3 and labels of 9 to 11 characters (fstcvt2.f:69-70, 93-94); a label which begins with four characters 255 is lost (W).
* C165: ERELEM is set and then replaced by 0 (qrbsct.F90:143, 148); a table which is too small leaves the file open and the stated number in NELELU (129-130); MRBRPT accepts element 65536 and reads outside the array (mrbrpt.F90:51) (W).
* C166: VGLO and VGLOGG pass DELLAM to NPSPIN before it is set (vglo.F:121, 132; vglogg.F:131, 141) (W).
* C167: ORDLEG8 uses FN, which is not set, for the wave number 0 (ordleg8.F:79) (W).
* C169: hyb2pres passes its own NI, NJ, NK to fstinf and fstluk, which overwrite them; only one level, or only one point, of the output is written and 0 is returned (hybref.f90:86-139) (W).
* C169: hyb2pres gives pressure levels in pascals instead of millibars or the logarithm (hybref.f90:147), does not take the logarithm for kind 5 (175), and returns 0 without output if there is a record `!!` (157-159) (W).
* C169: hybrid_to_pres takes the first level for the top, whatever it is (hybref.f90:265-270) (W).
* C169: in single precision the coefficients 1.004, 1.009, 1.012, 1.017 and 1.022 lose 0.001 when they are coded (hybref.f90:327) (W).
* C170: DGAUSS for the south with an odd order sets the first values one position further than it refines them: one root is not refined, another comes from what was in the array (dgauss.F:96-105) (W); for one hemisphere it writes all N positions, not only half of them.
* sll.F:66 and sps.F:71 set the common variable ORDINT to 3 in each call (the DATA statement is a comment now), so the orders 0 and 1 cannot be asked for; the entry SLC of sps.F does not set it and depends on the calls before (C172_order_witness).
* SSNH and SANH (sglo.F) read row 0 of the field at each place within 1.5 steps of the south pole, because IDXES reflects rows at the equator only and not again at the pole (C173_south_witness).
* SSNHGG and SANHGG (sglogg.F) set NPOLY=2*LJ and compare with ROOTS(NPOLY-1) and ROOTS(NPOLY), but ROOTS is declared with LJ elements (C175_north_witness).
* gduvfwd.c has no `break` after the inner switch; the second call has no effect, because ez_gdwfllw ignores the letters #, Y, Z.

**BURP**

* C97: dates of the 1900s lose their century unless ENFORC8 (W); dates before 1900 and after March 2700 are stored as other dates (W); fields are cut without a test of range (W). mrbini, mrbupd and mrfloc set ERRDAT (six-digit date under ENFORC8) or ERCLEF as result and then overwrite it by the result of the last call, so the caller never sees it.
* C98: mrfloc compares the hour only (W); a name of one star matches names of one character only (W).
* rah2char (primitives/rah2char.c 36) shifts the integer to the left again for every character, so with two or three characters all but the first are lost; the library only calls it with one.
* C49: deleting a block of type 3 ignores an error and corrupts later blocks (W); replacing one is always refused. A refused addition has already moved the other blocks (W). Missing values only with width 0 come back as zeros (W).
* Arguments of memset are swapped in `c_mrbadd`; `lstele[1..2]` is read for shorter lists; `datyp == 0` compares a pointer; size checks are about ten words too generous and follow the first write; widths over 32 are not refused; -2^31 overflows; arrays are read in 64-bit units; type 5 also changes characters that are not letters.

