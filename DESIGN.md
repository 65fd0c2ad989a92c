# Formal model of zune-image: design

## Layout

* `properties.jsonl` - the English properties (C01 ...).
* `lean/Verif/<Area>/Model.lean` - executable model of the Rust functions, each definition citing file and lines in `/repo`.
* `lean/Verif/<Area>/Spec.lean` - small specification, independent of the model (format documents, geometry, arithmetic).
* `lean/Verif/<Area>/Lemmas.lean` - helper lemmas only.
* `lean/Verif/<Area>/Props.lean` - the property theorems with one concrete `example` each showing that hypotheses are satisfiable.
* `MANIFEST.json` - property -> theorem map with status.
* `seeded/LOG.jsonl` - record of deliberate model edits (seeded bugs) and the theorems that rejected them.

## Trusted base

* Lean 4.33.0 kernel; axioms at most `propext`, `Classical.choice`, `Quot.sound` (no added axioms, no `sorry`, no
  `native_decide`, no `bv_decide`). Finite-table facts use `decide`/`decide +kernel`, i.e. kernel reduction.
* The transcription of the Rust source into Lean: this is by hand, function by function; each model definition has a comment
  with the source location and the simplifications made.
* Rust semantics assumed: integer types as `Nat`/`Int`/`BitVec`/`UInt8` with explicit wrapping where the code wraps, 64-bit
  `usize`, little-endian host (`to_ne_bytes`), slice indexing out of range = panic, modelled as an explicit error value.
  Memory allocation never fails. Of the standard library, `Path::extension` and `BufWriter` are modelled for C132 from their documentation.
* Not modelled (global): SIMD variants (AVX2/NEON/SSE) except those with properties of their own (PNG filters, JPEG AVX2 and NEON kernels and portable SIMD upsampling, deinterleaving, grayscale, transposition), logging, I/O errors of `std` readers, `unsafe` aliasing, time.

## Common conventions

* A byte is `UInt8` (or a `Nat < 256` with the bound in the theorem), a buffer is a `List`.
* Functions returning `Result` are modelled with `Except Err _` or `Option _`; a panic is a distinct error constructor.
* Where a property is false of the code, the negation is proved on a concrete witness and a `_partial` theorem states what does
  hold. All such disagreements are collected in the section "Disagreements" below.

## Plan per property

| id | model | proof |
|----|-------|-------|
| C01 | QOI `encode` and `decode` byte level | simulation invariant between encoder cache and decoder cache, induction on pixels with pending run |
| C02 | same | size potential by induction over pixels |
| C03 | decoder loop | refinement to a separate specification interpreter; hash trick proved equal to formula |
| C04 | `decode_into` | false (oversize buffers keep decoding): witness + partial for exact size |
| C05 | `decode_headers` | iff characterisation |
| C06-C08 | `ZCursor`/`ZReader`/`ZWriter` as (bytes, position) | equational laws; induction over sequences |
| C09 | farbfeld encoder, decoder | false for every non-empty image: general negations; partial for the encoder and for streams with trailing data |
| C10 | PPM encoder/decoder headers and samples | decimal print/parse lemma, header lemma per version; partial (first sample byte must not be whitespace or '#'), general negation otherwise |
| C11 | zlib stored encoder; block loop, stored blocks, bit reader, zlib wrapper; Huffman blocks are a parameter here (they are modelled for C14; stored blocks do not use them) | bit reader invariant `Bits.Ok`, induction on blocks; refuted beyond the limit |
| C12 | CRC tables, slice-by-8 in both crates; Adler (RFC loop) | complete check of the 2304 table entries by kernel evaluation, linearity over xor; induction |
| C13 | table builder (`Inflate/TableModel`: counts, sorting, both loops, doubling, subtables) with explicit aborts | loop invariants against the canonical code of `Common/Prefix`; a Kraft argument bounds the table size |
| C14 | fast loop, careful loop, copies, dynamic headers, tables, block loop, containers | against RFC 1951 as inductive relations (`Rfc1951.lean`): refinement of each loop, induction over the symbols, the code lengths and the blocks; two classes of streams refuted |
| C15 | limit check of stored blocks | refuted for every limit below a stored block |
| C16,C17 | all five filters, scalar, SSE and portable-SIMD versions; encoder filters | the SIMD loops as pixel-wise folds; invariants over the row; predictors by case analysis on 16-bit lanes |
| C18 | PNG encoder, chunk parser, zlib container, unfilter | the encoded file is a file of the specification; composition of C11, C12, C16, C20 |
| C19 | Adam7 tables and loops | arithmetic mod 8; the blocks written by the passes are the pixels of the RFC pattern |
| C20,C21 | whole decoder from chunks to pixels: expansion of bits, palettes, keys, alpha | refinement of the row loop (including the delayed post-processing) to a per-pixel specification; witnesses and general negations |
| C59,C60 | chunk loop, IHDR, PLTE, tRNS, IDAT, gAMA, eXIf, unknown chunks, CRC check | induction over the chunks |
| C61 | byte order and reduction of 16-bit output | list induction; general negation |
| C22,C23 | HDR `rle` and scanline decode, `decompress` | round-trip by loop invariant; witness for old style |
| C24,C25 | PSD | refinement to packet semantics; witnesses |
| C26,C27 | BMP headers, palette, all uncompressed row readers, final flip; `shift_signed` | whole-file theorems against a file format spec; symbolic field extraction plus complete finite table for the multipliers |
| C55,C56 | BMP `decode_rle` for 8 and 4 bits | refinement to a drawing machine (cursor, picture), induction over commands |
| C28 | `Image/ChannelModel.lean`: memory block, length, stored layout, explicit faults | invariant over all operation sequences; the stale layout is proved for every history that grows twice |
| C29 | `Image/SplitModel.lean`: deinterleave (generic, 2/3/4, SSE2, SSSE3), `Frame::flatten`, `swizzle_channels` | spec: plane `k` is component `k` of each pixel; SIMD shuffles by naturality |
| C30 | `Image/DepthModel.lean`: `Depth` with exact `f32` rounding | complete 256-entry tables for 8 bit samples, error analysis of the roundings for 16 bit samples |
| C31-C34 | image geometry functions | index characterisation |
| C35,C36 | pointwise maps | arithmetic |
| C37,C38 | alpha arithmetic | witness + partial; Lemire/Granlund-Montgomery theorem |
| C39 | separation | case analysis; witness for LumaA |
| C40 | pipeline state machine | induction; witness for the inverted test |
| C41 | interleavings of per-channel steps | commutation induction over schedules |
| C42 | Jpeg/HuffModel: `HuffmanTable::make_derived_table` and `decode_huff!`; spec is the canonical prefix code (Common/Canon: first code and number of codes of each length) | loop invariants of the table fills, uniqueness of the matching length |
| C43 | Jpeg/HuffModel: the combined run/value table | closed form of each entry compared with `decode` and EXTEND |
| C44 | Jpeg/HuffModel: `huff_extend` on `BitVec 32`; spec is EXTEND of T.81 | sign spread lemma, interval of the results |
| C45 | scalar and AVX2 IDCTs on `BitVec 32`, selection by length, buffer reuse, stores with stride | ring identities after shuffles are resolved by `rfl`; invariant over the sequence of blocks |
| C46 | Jpeg/ColorModel: ycbcrPixel, conv16Scalar, AVX2 lane by lane (conv16Avx) | floor bounds and linear arithmetic over the rationals; the AVX2 shuffles by naturality and one run on lane numbers |
| C47 | Jpeg/UpsampleModel: upsample_horizontal/vertical/hv/generic, scalar and AVX2 | refinement: loops and 16-lane chunks to closed form `tent`; shuffles by naturality |
| C48 | Jpeg/BitsModel: `refill` and the bit reader; spec is byte stuffing of T.81 and the bits of the data as a list | invariant: buffered bits followed by the bits still to come |
| C49 | the table and `decode_mcu_block`; spec is the anti-diagonal walk of T.81 | complete finite check of the table; invariant of the coefficient loop over every stream |
| C50 | Jxl/ColorModel: convert_rgb_to_ycocg and the fill_row functions on `BitVec 16`/`BitVec 32`; spec is the inverse transform over the integers | no-overflow lemmas, linear arithmetic with floors |
| C51 | Jxl/WriterModel: both bit writers, panics of slices and assertions explicit; spec is concatenation of LSB-first bit lists (Common/Lsb) | invariant `Holds`: bytes written followed by pending bits are the bits requested |
| C52 | Jxl/WriterModel: both token functions; spec is the hybrid integer of ISO/IEC 18181-1 | arithmetic of `log2` |
| C57 | PFM header, samples, row exchange | chunk lemma; even heights proved, odd heights refuted in general |
| C58 | gzip header, footer around the block loop | all optional fields; stored bodies |
| C62 | `Image/ChannelModel.lean` | refinement to lists of elements |
| C53 | `guess_format` on the byte stream cursor | `c53_exact`: answer f iff signature of f and enough bytes, by induction over the table of magics; reader position restored |
| C54 | `EncoderTrait::encode`, `encode_to_result`, `confirm_invariants`, `OperationsTrait::execute`, the tables of the seven encoders; `encode_inner` is a parameter | refinement: `encode` = `encode_inner` of the image after C63 and C30 conversions |
| C63 | all of `colorspace.rs` dispatch; layout functions exactly; HSL, HSV (see C116, C117), RGB to CMYK, float CMYK are parameters | meaning function per colour space; each conversion shown to be `relabel`, two step conversions by composition; CMYK rounding by case analysis on the quotient |
| C64 | scalar, SSE4.1 and AVX2 grayscale code lane by lane | fixed point bound by linear arithmetic; lane = scalar; SIMD chunks and tail by list induction |
| C65 | `execute` around an arbitrary operation | case analysis of the check |
| C66 | Jpeg/ColorModel: colorConvert and all line loops | loop lemmas pixelLines_eq and ycbcrLines_eq, pixel specification pixelOf; witnesses J2 to J4 |
| C67 | Jpeg/UpsampleModel, FrameModel: setup_component_params, set_upsampling, setup_upsample_scanline, calculate_padded_width, upsample, post_process, loop over MCU rows | invariant between MCU rows (`Between`, `Emitted`), composed with C66 for each line |
| C68 | Jpeg/BitsModel: decode_dc, decode_mcu_block, discard_mcu_block; spec is the encoder of T.81 figure F.2 (acTokens, magnitude) | bit reader invariant carried through each code; fast and slow path shown to do the same; induction over codes and blocks |
| C69 | Jpeg/ProgModel: progressive decoding functions and the scan loop | invariant of the bit stream with the end-of-band run; encodings as inductive relations; induction over blocks, then over scans, with the number of bits known of each coefficient |
| C70 | Jpeg/ProgOrder: block counts and orders of scans | arithmetic of ceilings; injectivity of places |
| C71 | `Jxl/AreaModel`: `packed_signed`, `process_chunk`, `process_row`, the double line buffer and `process_image_area` for one channel | equations of a decoder in raster order over the integers (`Decodes`), shown to have one solution; invariant over chunks, rows and buffers (`Jxl/Area`) |
| C72 | `Jxl/CodeModel`: `compute_code_lengths`, the canonical code, `PrefixCode::new`; specification `Common/Prefix` | the dynamic programme computes the minimal cost over all lengths with the right Kraft sum (`Jxl/Lengths`), back-walk attains it; canonical words by induction over lengths (`Jxl/Code`, `Jxl/NewCode`) |
| C73 | `encode_rle`, `chunk`, the residual writer (`channelBits`) | relation `Reads` of the standard's decoder, unique because the code is prefix free; simulation over calls |
| C74 | `Jxl/DescModel`: `PrefixCode::write_to`; specification `Jxl/Rfc7932`: relation `Describes` of RFC 7932 §3.5, written from the RFC | the code length code is complete by C72's argument (`Jxl/Desc`), the reader follows the written symbols by induction, and the relation is functional (`describes_unique`) |
| C75 | `Jxl/StreamModel`: `encode` with sampling, code construction, sections, header and output; every allocation, index and assertion an explicit failure | the number of bits of each channel is at most `sampleBits` per sample (C72 and C52 bound each code word), which is compared with the room (`Jxl/Sections`, `Jxl/Stream`). The failures (`Jxl/StreamOverflow`): on checkerboards every residual has the largest token |
| C76 | as C75; specification `Jxl/Iso18181`: a parser written from the standard, headers and table of contents | what the writers hold is a list of fields (C51), and each field is read back (`Jxl/Header`); the sections are cut by the table of contents (`Jxl/Stream`, `Jxl/StreamRead`) |
| C77 | as C76; relation `Codestream` of the specification | `Jxl/StreamRead`, `Jxl/StreamWhole`: sections by C74, C73 and C71, pixels by C50; uniqueness by induction over each relation |
| C78 | pad, spatial, spatial_ops (`Imageprocs/AreaModel`) | rows of the padded picture as a list; loop invariant of the stateful neighbourhood loop; specification by clamped coordinates |
| C79 | median (`Imageprocs/AreaModel`) | invariant: the histogram counts the window; sliding step by counts; rank by counting smaller samples |
| C80 | box_blur for 8 and 16 bits (`Imageprocs/FilterModel`) | sliding sums equal window sums, no wrap; both directions through C33 |
| C81 | mirror (`Imageprocs/FilterModel`) | positions of rows and of samples in a row |
| C82 | stretch_contrast for 8 and 16 bits (`Imageprocs/FilterModel`) | C38 for the division; arithmetic |
| C83 | parse_dqt, un_zig_zag (`Jpeg/HeaderModel`) | tables as lists of bytes (`Jpeg/HeaderSpec`); induction over the tables in both directions; un-zig-zag by naturality and the finite table |
| C84 | parse_huffman, with `HuffmanTable::new` of C42 | induction in both directions; the code by C42 |
| C85 | parse_start_of_frame, Components::from | iff by inversion of every check |
| C86 | parse_sos | induction over the components with the names seen; positions by findIdx |
| C87 | decode_headers_internal, parse_marker_inner, parse_app0/1/2/13/14, DRI, skipping | one lemma per segment, one for finding a marker, induction over the segments with an invariant relating decoder and segments |
| C88 | the same with setup_component_params (colour part) | fold over the segments before and after the frame |
| C89 | icc_profile | the table as a function; sub-permutation of equal length |
| C90 | all of the above | a predicate transformer (`Fine`) through every function, fuel bounded by the bytes left |
| C91 | `decodeJpeg` from the bytes of the file to the pixels: `decodeHeaders`, MJPEG tables, `check_tables`, set-up of the components, MCU loop with restart markers, `check_stream_marker_after_mcu_width`, `advance_to_next_sos`, `post_process`, `finish_baseline_decoding` | bits of a scan by C43/C48/C68, invariant of a row of MCUs, refinement of rows into `mcuRow`, then C67; headers by C87, C88 |
| C92 | as C91 with `needed = false` for the other components | skipping a block consumes the same bits as decoding it, then `c67_grey` |
| C93 | `decodeJpeg` on arbitrary bytes, every index and slice an explicit panic, bounds on the loops computed from the input | invariant `Sound` of the headers kept by every marker segment, invariant `Roomy` of the buffers kept by every block and every scan, bytes left decrease between scans |
| C94 | `Png/AnimModel.lean`: all chunk readers, `Dec.headers`; zlib a parameter | per-chunk lemmas, induction over the chunks (`main_parts`) |
| C95 | `fctlLoop`, `Dec.headers` called repeatedly | invariant `Holds` (frames read so far are those of the file, stream is at the next fcTL) kept by every call |
| C96 | `Dec.raw`, `framePasses`, `postImage`, `animLoop`, `decodeAnim` | frames decoded by C11's row lemmas, `post_image`: rows of the canvas equal `Spec.draw`, induction over the frames |
| C97 | `Jpeg/ProgDriver.lean`: scans, segments between them, `finish_progressive_decoding`, `decodeAny` over bytes | scans by C68 to C70 (`data_step`), induction over restart intervals (`scan_data`) and over scans (`scans_loop`), then rows of MCUs (`prog_rows`) and `postAll` as in C91 |
| C98 | `Jpeg/ProgDriver.lean` (`decodeAny`) | `Jpeg/ProgSafe.lean`: invariants over bytes left, restart countdown (`Counted`), sizes of 16 bits (`Small`) and buffers (`Roomy`), through every function of the progressive decoder |
| C99 | `Imageprocs/EdgeModel.lean` (the three kernels, i32 squares, f64 root and cast) | `Imageprocs/EdgeProps.lean` on `spatialLoop_spec`; the root with the rounding of `Common/Float.lean` |
| C100 | `Imageprocs/CompositeModel.lean` (gravity, loops over rows, dispatch on colour space and method; f32 as rationals rounded to 24 bits) | `Imageprocs/CompositeProps.lean`: rows and columns of the result, error analysis of the five roundings |
| C101 | `Imageprocs/OrientModel.lean` (dimensions, arbitrary angle with bilinear interpolation) | `Imageprocs/OrientProps.lean`, roundings by `Common/Float.lean`; `Imageprocs/RotateProps.lean` as for C115 |
| C102 | `Imageprocs/OrientModel.lean` (`auto_orient` over the models of C31 to C33) | `Imageprocs/OrientProps.lean`: the eight cases against the sides named by the TIFF tag |
| C103 | `Imageprocs/ToneModel.lean` | `Imageprocs/ToneProps.lean`: error analysis, monotony of rounding; gamma 1 at 8 bits over the full table |
| C104 | `Imageprocs/ConvolveModel.lean` | `Imageprocs/ConvolveProps.lean` on `spatialLoop_spec`; induction over the sum for the error, integers for exactness |
| C105 | `Gif/Model.lean` (the whole crate) | `Gif/Props.lean` |
| C106 | `Imageprocs/MixModel.lean` | `Imageprocs/MixProps.lean`; errors of chains of roundings by `Common/FloatErr.lean` |
| C107 | `Imageprocs/MixModel.lean` | `Imageprocs/MixProps.lean`, likewise; the neutral setting by evaluating the nine coefficients |
| C108 | `Imageprocs/MixModel.lean` | `Imageprocs/MixProps.lean`, cases on the order of the two samples |
| C109 | `Imageprocs/ResizeModel.lean` | `Imageprocs/TransferProps.lean`; both ends by evaluation, order by monotony of rounding |
| C110 | `Imageprocs/ResizeModel.lean` | `Imageprocs/BilinearProps.lean`; error of the position and of the mix by `Common/FloatErr.lean`, Lipschitz bound of the interpolated picture |
| C111 | `Imageprocs/ResizeModel.lean` | `Imageprocs/SeparableProps.lean`; windows from the floor of the middle, weights and two passes by `Common/FloatErr.lean`; sums of clipped windows by cases |
| C112 | `Imageprocs/ResizeModel.lean` | `Imageprocs/SeparableProps.lean`; relative errors of two divisions in f64 |
| C113 | `Imageprocs/BilateralModel.lean` | `Imageprocs/BilateralProps.lean`; relative errors of positive sums in f64, number of places of a disk by counting rows |
| C114 | `Imageprocs/GaussModel.lean` | `Imageprocs/GaussProps.lean`; box blurs of rows by C80, transposes by C33, relative errors of f32 |
| C115 | `Imageprocs/AffineModel.lean` | `Imageprocs/AffineProps.lean`; errors by `Common/FloatErr.lean`, relative errors of the determinant and its reciprocal; whole numbers exactly |
| C116 | `Image/HsvModel.lean`; spec `Image/HsvSpec.lean` (hexagon of hues by distance on the circle) | `Image/HsvProps.lean`: exact colours by `channel_hue`, errors by a calculus of numbers from 0 to 1, shares are Lipschitz and periodic |
| C117 | `Image/HsvModel.lean`; spec `Image/HsvSpec.lean`, `room` | `Image/HslProps.lean`: as C116; the choice of branch by rounded numbers costs 6·2⁻²⁴ at most |
| C118 | `Image/HsvModel.lean` (`toFloat`, `ofFloat`, `convertFrame`); spec `channel`, `room` | `Image/HsvDepth.lean`: hue, saturation and value one step too small move every channel by 7 (8.5) steps at most |
| C119 | `Jpeg/NeonModel.lean` (`idctNeon`, `conv16Neon`, `upHNeon`, `upVNeon`, `upHVNeon`); spec: the scalar functions, `tent` | `Jpeg/NeonLemmas.lean`, `Jpeg/NeonProps.lean`: lanes of the registers against the AVX2 and scalar ones; loops with an overlapping remainder |
| C120 | `Imageprocs/TransposeSseModel.lean` (`sseTile8`, `sseTile16`, `sseTile32`, `sseTranspose`, `transposeChannel`); loads and stores out of bounds are `none` | `Imageprocs/TransposeSseProps.lean`: register networks lane by lane, tiles by induction, then the two strips |
| C121 | `Imageprocs/EdgeFloatModel.lean`, `Common/FloatSqrt.lean` (correctly rounded root) | `Imageprocs/EdgeFloatProps.lean`: relative errors of sums, triangle inequality for the root of the squares; rounding is odd |
| C122 | `Jpeg/PortableModel.lean` (portable SIMD upsampling) | `Jpeg/PortableProps.lean`: windows and chunks by induction, the overlapping remainder closes the gap; both sides equal the triangle filter of C47 |
| C123 | `Inflate/HcModel.lean` (hash chains, count, compress_block, v_hash, add) | `Inflate/HcProps.lean`: trailing zeros of an exclusive or name the first different byte; a found match satisfies `Real` whatever the tables; for totality all reachable links are fresh and behind the position |
| C124 | `Image/MakeModel.lean` (constructors, modify_pixels_mut, u16_to_*_endian, ==) on the typed channels of `SplitModel.lean` | `Image/Make.lean`: after k pixels of the double loop the first k samples of each channel are new (`done`); from_* by C29 |
| C125 | `Hdr/FileModel.lean` (decode_headers, encode, convert_scanline, fast_log2, floor, frexp, float_to_rgbe) on rationals with rounding | `Hdr/FileProps.lean`: lines of the header by induction; RGBE values are exact as all intermediate results fit 24 bits; fast_log2 of a number below one half is negative by interval arithmetic on its roundings, `floor` of any negative number is -1 |
| C126 | `Image/SaveModel.lean` (write_to_vec, to_u8, encode_inner and decode of the wrappers, read) on top of the models of encode (C54), splitting (C29, C124), guessing (C53) and the codecs (C01, C09, C10) | `Image/Save.lean`: composition of c54_encode_partial, c29, c53_exact, c01_roundtrip, c10 and c09 |
| C127 | `Capi/Model.lean` (conversions, from_u8/u16/f32, get_out_buffer_size, write_to_output) on top of the models of C124 and C29 | `Capi/Props.lean`: c124_from_bytes, c124_from_pixels and c29_swizzle; the wrong count by arithmetic |
| C128 | `Capi/HeapModel.lean` (malloc, free, statuses, pictures, zil_imdecode) | `Capi/Heap.lean`: invariant of the heap (`Heap.Good`, `Holds`), induction over reports |
| C129 | `Capi/DecodeModel.lean` (decode_info, imdecode_inner, zil_imdecode_into) on top of the models of guessing (C53), PPM (C10), QOI (C01), farbfeld (C09) and JPEG headers (C87); other decoders abstract | `Capi/Decode.lean`: composition, lengths of decoded samples |
| C130 | `Capi/InfoModel.lean` (enumerations, zil_guess_format, zil_read_headers_from_memory, zil_zimg_read_from_memory) on top of the heap (C128) and `Capi/DecodeModel` (C129) | `Capi/Info.lean`: C53, C05, C09 and C128 composed; limits of PPM headers by induction over the loop of P7 |
| C131 | `Imageprocs/UnsharpModel.lean` | `Imageprocs/UnsharpProps.lean`; the blur is independent of the scratch space (C114 for any scratch), the loop over channels by induction, the step by C108 |
| C132 | `Image/FileModel.lean` (save, save_to, encoder_for_extension, has_encoder, has_decoder; BufWriter and Path::extension of the standard library) | `Image/File.lean`; invariant of the buffered writer by induction over the pieces, C126 for opening |
| C133 | `Capi/OpsModel.lean` (exec_imgproc, zil_imgproc_blend, execute) | `Capi/Ops.lean`; memory of statuses as in C128, C130 |
| C134 | `Image/ArithModel.lean` (Add, Sub, check_full_compatibility) | `Image/Arith.lean`; the slices of C39 put back frame by frame, induction over frames and channels |
| C135 | `Image/OptionsModel.lean` (EncoderOptions, create_options_for_encoder, set up of the JPEG and PNG encoders) | `Image/Options.lean`; induction over sequences of setters with a general lemma on the last call |
| C136 | `Image/OptionsModel.lean` (DecoderOptions, constructors, use_sse2 … use_neon) | `Image/Options.lean`; same lemma, invariant that no call changes the flags of the intrinsics |
| C137 | `Image/WorkflowModel.lean` (create_and_exec_workflow_from_cmd on the models of pipelines and extensions) | `Image/Workflow.lean`; induction over formats and outputs, on C40 |
| C138 | `Image/NumpyModel.lean` (from_numpy, convert_2d, convert_3d, to_numpy_generic) | `Image/Numpy.lean`; C124 and the weaving of channels (C29), induction over frames |

Floating point: `Common/Float.lean` rounds rational numbers as IEEE 754 does (to nearest, ties to even, unlimited exponents), so sums, products and quotients
of f32 and f64 are modelled exactly as long as nothing overflows or underflows. Not modelled: sines, cosines, `powf`, `exp`, logarithms and roots, which are
parameters of the models (constrained only as stated in the theorems), and channels of f32 samples.

Writes outside the coefficient buffers of the progressive JPEG decoder are panics of the model, so C98 includes that none occurs. No theorem says that
baseline JPEG files of several scans in general are decoded as in T.81 (C98 covers only that they end without panic), nor what happens if the colour space
changes between the scans.

## Disagreements

Places where the code does not have the property as stated; each has a machine-checked witness.

| id | property | what the code does | theorem |
|----|----------|--------------------|---------|
| Q1 | C04 | `decode_into` with a buffer larger than the image keeps decoding past the last pixel and fails | `Zune.Qoi.c04_larger_buffer_fails` |
| Q2 | C05 | truncated QOI headers are accepted (missing bytes read as zero) | `Zune.Qoi.c05_truncated_accepted` |
| R1 | C07 | a failing peek moves the position (std flavour) | `Zune.Bytestream.c07_peek_error_moves` |
| R2 | C07 | truncated defaulting getters return the partial bytes, not zero | `Zune.Bytestream.c07_truncated_default_not_zero` |
| H2 | C23 | old-style repeat codes are skipped or copied to the wrong place | `Zune.Hdr.c23_repeat_wrong` |
| H3 | C23 | flat output of the HDR encoder loses pixels (1,1,1,e) | `Zune.Hdr.c23_encoder_flat_wrong` |
| PS0 | C24 | greyscale PSD with several channels: only part of the row table is skipped | `Zune.Psd.c24_grey_alpha_wrong` |
| PS1 | C25 | uncompressed 8-bit PSD with several channels: only the first w*h samples are written | `Zune.Psd.c25_eight_bit_lost` |
| PS2 | C25 | uncompressed 16-bit PSD: bytes exchanged by `decode` | `Zune.Psd.c25_sixteen_bit_swapped` |
| B2 | C26 | 8-bit BMP without palette: bytes 0 and 2 of every three are exchanged | `Zune.Bmp.c26_grey_wrong` |
| B3 | C26 | 1/2/4-bit BMP: row padding is not skipped | `Zune.Bmp.c26_4bit_wrong` |
| B4 | C26 | 16-bit BMP: stride computed from the height | `Zune.Bmp.c26_16bit_wrong` |
| B5 | C26 | twelve mask bytes are read after a 40-byte header, so valid files shorter than 66 bytes fail | `Zune.Bmp.c26_tiny_file_rejected` |
| B6 | C56 | RLE4: end of line on the top row is an error even before end of bitmap | `Zune.Bmp.c56_last_eol_rejected` |
| RT1 | C32 | rotating by 180 degrees exchanges rows only (a vertical flip); odd heights are torn | `Zune.Imageprocs.c32_rotate180_wrong` |
| RT2 | C32 | rotating 16-bit images allocates half the samples; the half turn panics | `Zune.Imageprocs.c32_sixteen_bit_wrong` |
| TR1 | C33 | transposing images smaller than 8 in a direction panics (debug) or loses pixels (release) | `Zune.Imageprocs.c33_small_images_wrong` |
| FR1 | C35, C39 | colour/alpha separation exchanges the two channels of LumaA, so invert changes alpha | `Zune.Imageprocs.c39_lumaA_wrong`, `c35_lumaA_wrong` |
| TH1 | C36 | threshold "to zero" writes the threshold instead of the sample | `Zune.Imageprocs.c36_to_zero_wrong` |
| PM1 | C37 | premultiply divides by 255 instead of shifting by 8: off by one, 255*255 gives 0 | `Zune.Imageprocs.c37_opaque_wrong` |
| PL1 | C40 | inverted emptiness test: a pipeline with images and no decoder fails | `Zune.Pipe.c40_images_only_fails` |
| PL2 | C40 | after an operation fails on a later image the state has already advanced; retrying reports success | `Zune.Pipe.c40_error_skips_images` |
| F1 | C09 | farbfeld `decode` allocates 4wh samples but `decode_into` compares with 8wh (bytes) and reads 8wh samples | `Zune.Farbfeld.c09_decode_always_fails`, `c09_decode_into_always_fails` |
| P1 | C10 | all whitespace and comments after the PPM header are skipped, including leading pixel bytes | `Zune.Ppm.c10_whitespace_fails`, `c10_whitespace16_fails` |
| P2 | C57 | PFM with an odd number of rows: the buffer is split in the middle of a row | `Zune.Ppm.c57_odd_height_wrong` |
| D3 | C15 | The output limit is compared with the bytes written before a stored block is copied, so the block itself may exceed it. | `c15_limit_ignored` |
| D4 | C11 | `decode_zlib` with default options rejects what `encode_zlib` writes once the last block starts behind 1 GiB. | `c11_over_limit` |
| N1 | C20 | greyscale PNG below 8 bits with an added alpha channel: the last row is not expanded like the others | `Zune.Png.c20_last_row` |
| N2 | C21 | 16-bit colour keys are compared in machine byte order with big-endian samples | `Zune.Png.c21_swapped` |
| N3 | C21 | adding an alpha channel overwrites the transparency found by the colour key | `Zune.Png.c21_overwritten` |
| N4 | C61 | strip to 8 bits after conversion to little endian keeps the low bytes | `Zune.Png.c61_strip_low` |
| N6 | C20 | a palette picture without PLTE decodes to its indices, without error; a PLTE chunk in greyscale pictures below 8 bits leaves the rows packed | `Zune.Png.c20_no_palette`, `c20_grey_palette` |
| CH1 | C28 | `Channel::push` grows by `capacity * size * 3 / 2`; with capacity 0, or 1 and one-byte elements, the block does not grow enough and the write is out of bounds | `c28_push_exact` |
| CH2 | C28 | `Channel::realloc` does not update the stored layout, so the second growth (and the final dealloc) use the layout of the first block | `c28_stale_layout` |
| DI1 | C29 | `de_interleave_four_channels_sse41` loads at bytes 0, 8, 16, 24 instead of 0, 16, 32, 48 (never called) | `c29_sse41_wrong` |
| DI2 | C29 | deinterleave_impls.rs:82 calls a function compiled for AVX2 when only SSE4.1 was detected (no theorem: instruction sets are not modelled) | |
| DP1 | C30 | 16 bit to `f32` and back loses one for some samples (first 257), because the cast truncates | `c30_16_f32_16_false` |
| GF1 | C53 | `guess_format` tries the magics with reads of their full length and stops at the first failing read: a stream with a valid signature but shorter than a magic tried earlier is answered with `None`. | `Zune.Guess.c53_short_missed` (general) |
| ER1 | C54 | `encode_to_result` (traits.rs:387-395) collects the bytes in `sink` and then returns `data: vec![]`. | `c54_result_empty` (general) |
| ER2 | C54 | `encode` clones an image with premultiplied alpha (traits.rs:329) but never converts it back: the premultiplied samples are written as if they were not. | `c54_premultiplied_ignored` (general) |
| ER3 | C54 | PNG, JPEG XL and PPM support RGBA but use the trait's default colour space RGB: encoding a BGRA image loses its alpha. | `c54_alpha_dropped` (general) |
| CS1 | C63 | `convert_rgba_to_argb_or_vice_versa` rotates in the same direction both ways: ARGB to RGBA gives the planes b, a, r, g. | `c63_argb_wrong` (general) |
| CS2 | C64 | The SSE4.1 and AVX2 grayscale loops zip r, b, g but name them r, g, b: the weights of green and blue are exchanged. | `c64_simd_swapped` (general) |
| CS3 | C64 | The SIMD remainder starts at `len - rem/3`: only a third of the remaining pixels is computed, from the wrong positions; the others stay 0 (the last pixel is always black). | `c64_simd_tail`, `c64_simd_last_black` (general) |
| CS4 | C64 | The weights add up to 0.9999 and the sum is truncated: white becomes 254 (65528 at 16 bits), so Luma to RGB to Luma loses up to 1. | `c64_grey_drifts` |
| CS6 | C65 | `confirm_invariants` takes channels without alpha, so an alpha channel of the wrong size is passed on | `Zune.Color.c65_alpha_unchecked` |
| J1 | C45 | a lone DC coefficient outside -131072..130043 makes the full transform wrap, the DC shortcut does not | `Zune.Jpeg.c45_wrap` |
| J2 | C66 | CMYK to RGBA stores three-byte pixels without alpha (worker.rs:269), the rest of the line is not written | `Zune.Jpeg.c66_cmyk_rgba` |
| J3 | C66 | YCCK to RGBA cuts lines by `width * 3` (worker.rs:245): the last quarter of the pixels never gets the K step | `Zune.Jpeg.c66_ycck_rgba` |
| J4 | C66 | two-band images are accepted for every output colour space but written as two-byte pixels (worker.rs:90-103) | `Zune.Jpeg.c66_two_bands` |
| J5 | C67 | a generic ratio beside V or HV: the rows kept for the next MCU row are taken from the samples before upsampling, two wrong lines at each MCU row boundary (mcu.rs:846-859) | `Zune.Jpeg.c67_generic_beside` |
| J6 | C67 | the scratch space for HV has the width of the first component (mcu.rs:190): panic when the first component does not have the largest factors and some component is HV | `Zune.Jpeg.c67_first` |
| J7 | C67 | `upsample_dest` is too short for a generic ratio with vertical factor over 1 unless the first component has a factor 2 (components.rs:195, misc.rs:268-287): decoding fails | `Zune.Jpeg.c67_generic_tall` |
| J8 | C67 | `width_stride` is computed with the maximum of the components so far (misc.rs:213-249): a component before the largest gets the wrong width | `Zune.Jpeg.c67_stride` |
| J9 | C48 | a segment ended by a marker that marker.rs does not list (APP3 to APP12, APP15, DHP, EXP, JPG) is refused as soon as the marker enters the buffer, so up to 56 bits before it are never decoded (bitstream.rs:219-221) | `Zune.Jpeg.c48_unlisted` |
| J10 | C68 | `*dc_prediction * qt_table[0]` is a checked multiplication in builds with overflow checks and can overflow for corrupt streams (the prediction wraps freely); the model has the wrapping product of release builds | (not a theorem) |
| J11 | C43 | when a corrupt stream runs past index 63 the fast path stores at index 63, the slow path at the index modulo 64 (bitstream.rs:401, 416); both stay in the block (`c49_written`) | (not a theorem) |
| J12 | C70 | a scan of one component whose factors are neither 1x1 nor the largest (e.g. 2x1 beside 2x2) takes the number of blocks of the whole image instead of the component's, so decoding goes out of step with the stream (mcu_prog.rs:252-260) | `c70_too_wide`, `c70_too_tall` |
| JX1 | C50 | 16-bit grey with alpha is read as signed: values from 32768 on become negative (color_convert.rs:70-81) | `c50_ga16_wrong` |
| JX2 | C73 | `encode_rle` collects code word, extra bits and the leading symbol in a `u32`; up to 37 bits occur, so the top bits of long runs (from 2056 on) are lost (encoder.rs:559-582). The lengths of `longRunCode` were found by evaluating the model on realistic counts | `c73_long_run_wrong` |
| JX3 | C72 | `compute_canonical_code` also counts unused symbols, and `code + counts` can overflow `u16`: harmless when arithmetic wraps, a panic in debug builds. The model wraps | none |
| D1 | C14 | after a stored block that is not the last one the new position leaves out the bytes read past the end, so with less than 56 bits from the header of the block to the end of the data the decoder reads bytes again (raw deflate ending in a sync flush and an empty block) | `Zune.Inflate.c14_flush_lost`, `c14_flush_rejected` |
| D2 | C14 | one pass of the fast loop may take 11 bits for a literal, 20 for a length and 28 for a distance but only 56 bits are loaded; the `u8` counter wraps (checked builds abort) and the next refill skips 24 bytes. A stream of 284 bytes that zlib decodes is rejected by the model | `Zune.Inflate.c14_fast_underflow` |
| JX4 | C75 | the room for 16-bit pictures is too small: a channel gets 24 bits per sample (encoder.rs:983, bit_depth.rs:205-207) but a colour difference can take 25, and the first channel of a picture of one group gets 16 (encoder.rs:900-902) but can take 24; the encoder panics | `c75_checkerboard_panics`, `c75_red_blue_panics` |
| JX5 | C76 | the alpha channel of 16-bit pictures is declared with the default, 8 bits (encoder.rs:1518-1521), though 16-bit samples follow | `c76_headers` |
| JX6 | C77 | JX1 and JX2 reach the stream: 16-bit grey with alpha is decoded with negative samples | `c77_ga16_wrong` |
| IP1 | C78 | `find_contrast` adds one to the divisor after a sum that wraps: the result is 0 for all samples below half of the range (the documented quotient can be 1), and 254 for 255 next to 1 (spatial_ops.rs:59-79) | `c78_contrast_zero` (general), `c78_contrast_wrong` |
| IP2 | C79 | the search stops when the count reaches n²/2, so it returns the sample one place below the median; and a radius of one (a 3x3 window) does nothing (median.rs:75, 165-175) | `c79_rank_partial` (general), `c79_not_median`, `c79_radius_one` |
| IP3 | C80 | the first window is not stored, so every output sample is the mean around its right (lower) neighbour; the right border subtracts the wrong samples; if the width is even and below the diameter the column left of the middle is never written; width 1 writes nothing, so the scratch space replaces the picture (box_blur.rs:222-295) | `c80_blur_partial` (general), `c80_shift_wrong`, `c80_even_column`, `c80_even_wrong`, `c80_width_one` |
| IP4 | C81 | `East` and `West` are exchanged against the documentation of `MirrorMode` and of `mirror` (mirror.rs:140-151) | `c81_east_iff` (general), `c81_east_wrong` |
| IP5 | C82 | the divisor is upper - lower + 1, so the map is not linear: with bounds 0 and 2 the sample 1 becomes 85 and not 127 (stretch_contrast.rs:110) | `c82_not_linear` (general) |
| J13 | C85 | a horizontal sampling factor of 3 is legal (T.81, table B.2) and always refused; a vertical factor of 3 is accepted (components.rs:129) | `c85_factor_three` (general) |
| J14 | C87 | an APP14 segment that is not Adobe's is skipped with two bytes too many (the length is not reduced by its own two bytes on that path), so the next marker is lost (headers.rs:494-500) | `c87_app14_wrong` (general), `c87_app14_refused` |
| J15 | C87 | the AVI1 check reads five bytes if the length exceeds 5, but a length of 6 leaves four: the byte after the segment is consumed (decoder.rs:526-541) | `c87_app0_wrong` (general) |
| J16 | C87 | the comment says that for FF 00 DA the marker DA is taken; `last_byte` is then 0 and it is not (decoder.rs:397-414) | `c87_stuffed` (general) |
| J17 | C88 | an Adobe segment after the frame header overwrites the colour space that the frame header derived from the number of components, so a grey image becomes multi-band, YCbCr or (strict) an error (headers.rs:480-490, misc.rs:299-343) | `c88_late_adobe` (general) |
| J18 | C89 | a profile in 255 pieces, the largest number ICC.1 allows, is refused: the test is `num_markers >= 255` (decoder.rs:628) | `c89_icc_255` (general) |
| J19 | C91 | files with several scans: a marker met by the bit reader during a row of MCUs ends the scan at the end of the row even if rows are missing (mcu.rs:578-643), their samples stay 0 | `c91_rows_lost` |
| J20 | C91 | a scan of one component with factors above 1 holds its blocks row by row (T.81, A.2.2); they are read in the order of MCUs (mcu.rs:485-488) | `c91_scan_order` |
| J21 | C91 | the last restart interval of a scan has no RST marker (T.81, E.1.4); if another scan follows, the decoder wants one and fails (mcu.rs:719-744), even if not strict | `c91_last_interval` |
| J22 | C91 | the count of MCUs to the next restart is not reset at the start of a scan | `c91_interval_kept` |
| J23 | C91 | `check_tables` (mcu.rs:34-74) asks at the first scan for the tables of all components; those not in the scan are taken to use table 0 | `c91_tables_early` |
| J24 | C91 | a quantisation table redefined between scans is not used: the tables are copied to the components once (misc.rs:246) | `c91_tables_kept` |
| J25 | C91 | several scans, grey output, first component with factors 1x2: slice out of range (mcu.rs:379), panic on a valid file | `c91_panic` |
| PA1 | C96 | `dispose_op = BACKGROUND` clears the whole canvas before the frame that has it is drawn; APNG clears that frame's region after it was shown. | `c96_background` |
| PA2 | C96 | `dispose_op = PREVIOUS` does not restore the canvas. | `c96_previous` |
| PA3 | C96 | An opaque pixel laid over a transparent one stays transparent (the alpha of the canvas is not updated). | `c96_alpha` |
| PA4 | C96 | `blend_op = OVER` aborts for pictures without alpha. | `c96_over_opaque` |
| PA5 | C96 | A default image that is no frame of the animation is shown as its first frame, delay 0/0. | `c96_default_image` |
| PA6 | C95 | A chunk between fcTL and its first fdAT: the frame is lost, its data is appended to the frame before. | `c95_chunk_between` (general) |
| PA7 | C96 | Interlaced frames narrower than the picture are put together with the row length of the picture. | `c96_interlaced` |
| PA8 | C94 | acTL of a wrong length: skipped, but without `return`; its values are read from the next chunk. | `c94_actl_length` (general) |
| PA9 | C95 | `decode_raw` after the last frame aborts (`unwrap` of `None`). | `c95_raw_after_last` (general) |
| PA10 | C96 | A frame of width zero aborts. | `c96_empty_frame` |
| PT1, PT2 | C94 | iTXt: language tag and translated keyword become part of the text, compressed text stays compressed. | `c94_itxt`, `c94_itxt_language` (general) |
| PT3 | C94 | Text chunks with a keyword of 79 bytes are ignored; PNG allows 1 to 79. | `c94_long_keyword` (general) |
| J26 | C97 | Progressive file whose first scan ends with a block of 32 bits or more, with its padding: the decoder has not seen the marker behind it and fails, strict or not. | `c97_marker_missing` |
| J27 | C97 | Restart interval that ends with a scan, another scan following: the decoder wants a restart marker there; error in strict mode, otherwise the remaining scans are lost. | `c97_last_interval` |
| J28 | C97 | A marker that the decoder does not know (APP3) behind the data of a scan: error in strict mode, otherwise this scan and the remaining ones are lost. | `c97_marker_unknown` |
| J29 | C97 | A refinement scan of DC coefficients, which uses no Huffman table, naming a place without table: error in strict mode, otherwise the scan is lost. | `c97_table_unused` |
| J30 | C97 | Progressive file with luminance factors 1 and 2 (4:4:0), wanted in grey, more than one row of MCUs: wrong rows, the lower half lost. | `c97_half_lost` |
| J31 | C97 | Quantisation table defined after the first scan: error. | `c97_quant_late` |
| J32 | C98 | Progressive frame of one or two components declared YCCK by an Adobe segment (behind the frame header if one component): taken for YCbCr, and `components[1]` or `components[2]` does not exist: panic. | `c98_panic` |
| IP9 | C99 | Sobel, Scharr and Prewitt take `c[7]` for `c[8]` in the first sum (sobel.rs:149, scharr.rs:195, prewitt.rs:64): a corner neighbour is ignored and the one below counted twice. | `c99_corner_wrong` |
| IP10 | C99 | The squares of the sums are `i32`: they overflow for 16-bit samples (panic in debug builds, wrong values else). | `c99_sixteen_wrong` |
| IP11 | C100 | The alpha channel becomes α² + β(1 − α) instead of α + β(1 − α) (composite.rs:318-324): half transparent pictures make holes into opaque ones. | `c100_alpha_wrong` |
| IP12 | C100 | The alpha of the destination is not used for colours: on a transparent destination the source is darkened. | `c100_transparent_wrong` |
| IP13 | C100 | LumaA: luma and alpha are exchanged (cf. C39). | `c100_luma_wrong` |
| IP14 | C100 | `Src` and `Dst` with an alpha channel hit `unreachable!`, `DstIn` is not implemented and returns Ok. | `c100_panic` |
| IP15 | C101 | `change_image_dims` overwrites the right dimensions of quarter turns with a rounded up `f32` sum (rotate.rs:127-144): 100 × 100 turned by 90° is said to be 101 wide. | `c101_dims_wrong` |
| IP16 | C101 | Rotation by 0° makes the last row and column white. | `c101_zero_wrong` |
| IP17 | C102 | Orientation 3 is treated like 4 for even heights (cf. C32: a half turn flips only); the tag is reset as a BYTE, not a SHORT. | `c102_half_turn_wrong` |
| IP18 | C103 | Exposure: "Default should be zero" (exposure.rs:63-64), but zero makes everything black; one is neutral. | `c103_exposure_zero` |
| IP19 | C103 | Gamma 1 at 16 bits changes samples (257 becomes 256): the product is cut off, not rounded. | `c103_gamma_one_wrong` |
| G1 | C105 | A global colour table that is cut off is accepted, missing colours are black (decoder.rs:98-112). | `c105_truncated_wrong` |
| G2 | C105 | The GIF decoder is unfinished: `decode_into` returns Ok, but clears the buffer (first call) or leaves it alone (later calls); it reads no image data. | `c105_no_pixels` |
| IP20 | C106 | `blend` with an alpha above 1 copies the source and then still applies the formula (blend.rs:146-156; a `return` is missing); with alpha 1.1 a sample of 61 becomes 60. | `c106_above_wrong` |
| IP21 | C106 | The inverting matrix in the documentation (color_matrix.rs:42-47) has -0.1 for -1.0 and an offset of 1 in the row of alpha; white becomes (0, 0, 229). | `c106_invert_doc` |
| IP22 | C107 | The matrix of `modulate_hsl` has 0.300 and 0.588 in the row of blue where 0.299 and 0.587 are needed (hsv_adjust.rs:173-174): the neutral setting changes blue. | `c107_neutral_wrong`, `c107_neutral_partial` |
| IP23 | C107 | A negative lightness does not give black for all pixels and hues (hsv_adjust.rs:67-68 says so). | `c107_negative_wrong` |
| IP24 | C108 | `unsharpen_u8` subtracts wrapping, so samples slightly darker than their neighbourhood become white (unsharpen.rs:241); `unsharpen_u16` adds wrapping, so bright ones become dark (unsharpen.rs:205). | `c108_darker_wrong`, `c108_wrap_wrong` |
| IP25 | C109 | `trc_linear` is `v.min(1.).min(0.)` (trc.rs:224): every sample becomes black; `max(0.)` is meant. | `c109_linear_wrong` |
| IP26 | C109 | At 8 bits linearising and going back, as `Resize` always does, makes the sRGB samples 1 to 10 black. | `c109_dark_wrong` |
| IP27 | C110, C111 | The resized samples are cut off instead of rounded: white pictures get spots of 254. | `c110_white_wrong`, `c111_white_wrong`, `c110_constant_partial`, `c111_constant_partial` |
| IP28 | C110 | Bilinear resizing to the same size is not the identity: the reciprocal of 41, times 41, is below 1 in f32, so that samples move by one. | `c110_same_wrong` |
| IP29 | C111 | The kernels are not stretched when shrinking: below a sixth of the width some columns have no influence (aliasing). | `c111_skips` |
| IP30 | C112 | `ratio_dimensions_larger` has the text of `ratio_dimensions_smaller` (resize.rs:250-260); both can miss an exact box by one (100 × 100 in 83 × 83 gives 82 × 82) and give a side of 0. | `c112_larger_wrong`, `c112_exact_wrong`, `c112_zero_wrong` |
| IP31 | C113 | The bilateral filter pairs the weights of the disk with the first samples of the square around the place, row by row, and takes differences to the sample at the right: the lowest row never counts. | `c113_below_wrong`, `c113_disk_wrong` |
| IP32 | C113 | Diameters 1 and 2 always panic. | `c113_panic_one`, `c113_panic_two` |
| IP33 | C113 | A diameter that is not positive is documented to be computed from sigma; the filter does nothing. | `c113_not_positive` |
| IP34 | C114 | The widths of the boxes are passed as radii: the variance is almost four times sigma². | `c114_wide_wrong` |
| IP35 | C114 | Sigma 0 is not the identity (radii 1). | `c114_zero_wrong` |
| IP36 | C114 | The ideal width is √(12σ²/3) + 1 (gaussian_blur.rs:175) instead of √(12σ²/3 + 1): whole sigma get widths of variance σ² + σ. | `c114_step_wrong` |
| IP37 | C115 | Affine transformations take samples only left of the last column and above the last row: these become white, even under the identity. | `c115_translation_wrong` |
| IP38 | C115 | Matrices of determinant below 2^-23 are refused as not invertible, e.g. scaling by 1/5000. | `c115_small_wrong` |
| IP39 | C115 | Translations have no effect: the new picture starts at the least coordinates of the transformed corners. | `c115_translation_wrong` |
| IP40 | C115 | Pixels are points at their upper left corner for sampling, but the corners of the picture are transformed: quarter turns are off by one. | `c115_quarter_wrong` |
| IP41 | C115 | `a.then(&b)` applies b first. | `c115_then_wrong`, `c115_compose` |
| CS7 | C117 | Near white `2.0 - max_c` is rounded before `min_c` is subtracted: the saturation is 1/2 where 1/3 is right. | `c117_white_wrong` |
| CS8 | C118 | `f32` samples are truncated, not rounded, to 8 or 16 bits: hue 1/6 becomes 42 of 255 and yellow comes back with green at most 252. | `c118_yellow_wrong` |
| TR2 | C120 | with SSE4.1 pictures less than 8 (4 for floats) samples wide still go to the scalar transposition and panic (debug) or come out blank (release); low pictures, which the scalar code loses, are right | `Zune.Imageprocs.c120_narrow_wrong` |
| IP42 | C121 | The float version of Scharr multiplies `c[7]` by 30 (scharr.rs:161; documented: `c[8]` by 3): a flat picture of value c gives more than 26c everywhere. Sobel and Prewitt also take `c[7]` for `c[8]`. | `c121_scharr_flat_wrong`, `c121_corner_wrong` |
| HC1 | C123 | When a match reaches the end of the block and another candidate has the same first byte, `longest_four_match` reads the byte after the block (hc_matchfinder.rs:236) and panics, though the comment says it is okay. | `c123_past_end_wrong` |
| HC2 | C123 | The last sequence of a block always has a match (3 bytes from 10 back, hc_matchfinder.rs:129-132) that does not occur in the block; read literally the sequences never stand for the block. | `c123_last_wrong` |
| MK1 | C124 | `from_fn` does not reset the array between pixels (image.rs:365-377): a function that leaves a pixel alone repeats the pixel before instead of the default. | `c124_from_fn_carry_wrong` |
| MK2 | C124 | `==` of images compares the frames only (image.rs:39-43): a 2x3 and a 3x2 picture with the same samples are equal. | `c124_equal_shape_wrong` |
| HD1 | C125 | `convert_pos`/`convert_neg` reduce the exponent modulo 32 (decoder.rs:512, 518): exponent bytes below 97 or above 159 give values off by a factor of 2^32 or more. | `c125_values_wrong` |
| HD2 | C125 | `floor` casts to `u64` (encoder.rs:301): it is -1 for every negative number, so pixels below one half are written with exponent byte 128 and all pixels below 1/512 are lost. | `c125_dark_exponent`, `c125_dark_wrong` |
| HD3 | C125 | A header value is cut off at an equals sign (decoder.rs:139-141). | `c125_equals_wrong` |
| HD4 | C125 | `expected_buffer_size`, said to be enough always, is not: run-length coding makes pictures without runs larger. | `c125_size_wrong` |
| SV1 | C126 | A PPM file whose first sample is a white space character or # is written but can not be opened (as C10). | `c126_ppm_wrong` |
| SV2 | C126 | No farbfeld file written by the library can be opened by it (as C09). | `c126_farbfeld_wrong` |
| SV3 | C126 | A premultiplied picture is saved as it is and comes back as one that is not premultiplied, with other colours (as C54). | `c126_premultiplied_wrong` |
| CA1 | C127 | zil_zimg_from_u16 and zil_zimg_from_f32 compare a number of bytes with a number of samples and hand on too many samples: they return null for a picture's samples and end the process when given two or four times as many. | `c127_from_u16_wrong`, `c127_from_f32_wrong` |
| CA2 | C127 | zil_zimg_write_to_output ends the process for pictures with one component unless the memory has exactly the size of the picture. | `c127_write_luma_wrong` |
| CA3 | C128 | zil_status_free frees the message and then drops the status, which frees it again. | `c128_status_free_wrong` |
| CA4 | C128 | zil_zimg_new, and so all functions that return a new picture, assign to memory fresh from malloc, which drops what is there. | `c128_image_new_wrong` |
| CA5 | C128 | zil_imdecode (and zil_imread, same text) does not free its memory when decoding fails. | `c128_imdecode_leak_wrong` |
| CA6 | C129 | imdecode_inner gives QOI files to JpegDecoder. | `c129_qoi_wrong` |
| CA7 | C129 | imdecode_inner asks a new PngDecoder for its depth and unwraps: every PNG file with good headers ends the process. | `c129_png_wrong` |
| CA8 | C129 | Farbfeld files can not be decoded into memory of the size that is asked for (F1, as C09). | `c129_farbfeld_wrong` |
| CA9 | C130 | zil_zimg_read_from_memory does not set the status when it succeeds: an earlier error stays. | `c130_read_stale_wrong` |
| CA10 | C127 | zil_zimg_write_to_output ends the process for pictures with more than four channels when the memory has room for another pixel (with one channel: for any other size). | `c127_write_bands_wrong` |
| IP43 | C131 | Without threads an 8-bit threshold is cut to its low eight bits (`as u8`, unsharpen.rs:92), with threads it is clamped (136): threshold 256 acts as 0 in one build and changes nothing in the other. | `c131_threshold_wrong` |
| SV4 | C132 | Extensions in capital letters (`JPG`) are refused (codecs.rs:354-429). | `c132_case_wrong` |
| SV5 | C132 | `save` empties the file before it encodes (codecs.rs:508-514): a picture the encoder refuses costs the file that was there. | `c132_lost_wrong` |
| SV6 | C132 | The BufWriter of `save_to` is never flushed (codecs.rs:508-516), failures when it is dropped are ignored: on a full device files smaller than the buffer are cut and success is returned. | `c132_full_wrong` |
| CA11 | C133 | Operations that succeed leave an earlier error in the status (improc.rs:44-48). | `c133_stale_wrong` |
| CA12 | C133 | The C interface calls `execute_impl` (improc.rs:44) instead of `execute`: colour space, depth and invariants are not checked; BGR pictures are inverted, which the library refuses. | `c133_unchecked_wrong`, `c133_invert_wrong` |
| OP1 | C134 | In LumaA the sum of two pictures adds alpha and leaves the grey values (FR1). | `c134_lumaA_wrong` |
| OP2 | C135 | set_jpeg_encode_progressive sets the flag of optimized Huffman tables; progressive is never on. | `c135_progressive_wrong` |
| OP3 | C135 | strip_metadata answers the opposite of what was set: Exif data is lost by default and written when it should be stripped. | `c135_strip_wrong`, `c135_exif_wrong` |
| OP4 | C136 | Neither new_safe nor set_use_unsafe(false) turns intrinsics off; the flags of the single features are always on and are combined with `or`. | `c136_unsafe_wrong` |
| OP5 | C136 | Asking for the checksums of PNG or zlib makes strict_mode true for all decoders. | `c136_strict_wrong` |
| CL1 | C137 | With several outputs every file gets the format of the last: `-o a.ppm -o a.png` writes PNG to a.ppm. | `c137_formats_wrong` |
| CL2 | C137 | Operations are not applied to pictures from standard input. | `c137_stdin_wrong` |
| CL3 | C137 | When no output has a known format the program succeeds without writing. | `c137_silent_wrong` |
| CL4 | C137 | A file that exists is emptied when the encoder then fails. | `c137_encode` |
| PY1 | C138 | An array with a third axis of one comes back with two axes. | `c138_one_wrong` |
| PY2 | C138 | Arrays of uint32 are refused, though documented as converted to 16 bits. | `c138_u32_wrong` |
| PY3 | C138 | Arrays without elements panic. | `c138_empty_wrong` |
| EX1 | C41 | on failure the threaded version has changed channels the sequential one has not | `Zune.Imageprocs.c41_error_images_differ` |
