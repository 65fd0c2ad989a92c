{
 "claims": [
  {
   "property": "C01",
   "status": "proved",
   "theorems": [
    "Zune.Qoi.c01_roundtrip"
   ],
   "note": "Lossless round trip through encoder and decoder models, for encoded files shorter than 2^64 bytes."
  },
  {
   "property": "C02",
   "status": "proved",
   "theorems": [
    "Zune.Qoi.c02_size"
   ],
   "note": ""
  },
  {
   "property": "C03",
   "status": "proved",
   "theorems": [
    "Zune.Qoi.c03_decoder_meets_spec"
   ],
   "note": "Decoder model equals an independent chunk interpreter on every body, including truncated ones."
  },
  {
   "property": "C04",
   "status": "partial",
   "theorems": [
    "Zune.Qoi.c04_decode_into_partial",
    "Zune.Qoi.c04_larger_buffer_fails"
   ],
   "note": "The claim is false of the code: a buffer with room for one more pixel makes a valid file fail (c04_larger_buffer_fails). Proved for less than one pixel of slack, plus agreement of the prefix whenever both succeed."
  },
  {
   "property": "C05",
   "status": "partial",
   "theorems": [
    "Zune.Qoi.c05_header_iff_partial",
    "Zune.Qoi.c05_truncated_accepted"
   ],
   "note": "Exact acceptance rule for streams with a full 14 byte header. False for truncated headers (c05_truncated_accepted)."
  },
  {
   "property": "C06",
   "status": "proved",
   "theorems": [
    "Zune.Bytestream.c06_int_roundtrip",
    "Zune.Bytestream.c06_bounded_sink"
   ],
   "note": ""
  },
  {
   "property": "C07",
   "status": "partial",
   "theorems": [
    "Zune.Bytestream.c07_read_exact",
    "Zune.Bytestream.c07_read_exact_nostd",
    "Zune.Bytestream.c07_flavours_agree",
    "Zune.Bytestream.c07_peek_ok",
    "Zune.Bytestream.c07_peek_error_partial",
    "Zune.Bytestream.c07_peek_error_moves",
    "Zune.Bytestream.c07_truncated_default_not_zero"
   ],
   "note": "False parts: a failing peek_at/peek moves the position in the std flavour (c07_peek_error_moves) and truncated defaulting getters do not return zero (c07_truncated_default_not_zero)."
  },
  {
   "property": "C08",
   "status": "proved",
   "theorems": [
    "Zune.Bytestream.c08_seek_sequence",
    "Zune.Bytestream.c08_random_access"
   ],
   "note": ""
  },
  {
   "property": "C22",
   "status": "proved",
   "theorems": [
    "Zune.Hdr.c22_scanline_roundtrip",
    "Zune.Hdr.c22_image_roundtrip"
   ],
   "note": "RGBE bytes; the float conversion is not modelled."
  },
  {
   "property": "C23",
   "status": "partial",
   "theorems": [
    "Zune.Hdr.c23_flat_partial",
    "Zune.Hdr.c23_repeat_wrong",
    "Zune.Hdr.c23_encoder_flat_wrong"
   ],
   "note": "Flat scanlines proved. False for repeat codes (c23_repeat_wrong); the encoder's flat output is misread when a pixel is (1,1,1,e) (c23_encoder_flat_wrong)."
  },
  {
   "property": "C24",
   "status": "partial",
   "theorems": [
    "Zune.Psd.c24_rle_partial",
    "Zune.Psd.c24_grey_alpha_wrong"
   ],
   "note": "Complete files, all packet sequences; matte removal of 4-channel images is a parameter. False for greyscale with more than one channel (c24_grey_alpha_wrong)."
  },
  {
   "property": "C25",
   "status": "partial",
   "theorems": [
    "Zune.Psd.c25_eight_bit_partial",
    "Zune.Psd.c25_eight_bit_lost",
    "Zune.Psd.c25_sixteen_bit_raw_partial",
    "Zune.Psd.c25_sixteen_bit_swapped"
   ],
   "note": "8 bit: proved for one channel, false for more (c25_eight_bit_lost). 16 bit: decode_raw proved for up to 3 channels, decode swaps the bytes (c25_sixteen_bit_swapped)."
  },
  {
   "property": "C31",
   "status": "proved",
   "theorems": [
    "Zune.Imageprocs.c31_vertical_flip",
    "Zune.Imageprocs.c31_flop",
    "Zune.Imageprocs.c31_flip",
    "Zune.Imageprocs.c31_involutions"
   ],
   "note": "Every pixel position of all three flips, for every image size."
  },
  {
   "property": "C32",
   "status": "partial",
   "theorems": [
    "Zune.Imageprocs.c32_quarter_turns_partial",
    "Zune.Imageprocs.c32_group_partial",
    "Zune.Imageprocs.c32_rotate180_partial",
    "Zune.Imageprocs.c32_rotate180_wrong",
    "Zune.Imageprocs.c32_sixteen_bit_wrong"
   ],
   "note": "Quarter turns proved for 8-bit channels. False for half turns (c32_rotate180_wrong: only rows are exchanged) and for 16-bit images (c32_sixteen_bit_wrong)."
  },
  {
   "property": "C33",
   "status": "partial",
   "theorems": [
    "Zune.Imageprocs.c33_transpose_partial",
    "Zune.Imageprocs.c33_transpose_twice_partial",
    "Zune.Imageprocs.c33_small_images_wrong"
   ],
   "note": "Proved for images of at least 8x8 pixels (scalar code). False for smaller images (c33_small_images_wrong). The SSE4.1 variant is not modelled."
  },
  {
   "property": "C34",
   "status": "proved",
   "theorems": [
    "Zune.Imageprocs.c34_crop"
   ],
   "note": ""
  },
  {
   "property": "C35",
   "status": "partial",
   "theorems": [
    "Zune.Imageprocs.c35_invert_partial",
    "Zune.Imageprocs.c35_involution",
    "Zune.Imageprocs.c35_lumaA_wrong"
   ],
   "note": "Involution proved for all supported colour spaces; max-x on colour and alpha untouched proved except LumaA, where it is false (c35_lumaA_wrong). Float samples not modelled."
  },
  {
   "property": "C36",
   "status": "partial",
   "theorems": [
    "Zune.Imageprocs.c36_threshold_partial",
    "Zune.Imageprocs.c36_to_zero_partial",
    "Zune.Imageprocs.c36_to_zero_wrong"
   ],
   "note": "Mode to-zero is false of the code (c36_to_zero_wrong). Float samples not modelled."
  },
  {
   "property": "C37",
   "status": "partial",
   "theorems": [
    "Zune.Imageprocs.c37_premultiply_u8_partial",
    "Zune.Imageprocs.c37_premultiply_u16_partial",
    "Zune.Imageprocs.c37_pointwise",
    "Zune.Imageprocs.c37_unpremultiply_u8",
    "Zune.Imageprocs.c37_unpremultiply_u16",
    "Zune.Imageprocs.c37_opaque_roundtrip_partial",
    "Zune.Imageprocs.c37_opaque_wrong"
   ],
   "note": "False of the code: premultiply is off by one for a quarter of all pairs and wraps 255*255 to 0 (c37_opaque_wrong). Proved: error at most one, exactness criterion, un-premultiply is nearest-integer division."
  },
  {
   "property": "C38",
   "status": "proved",
   "theorems": [
    "Zune.Imageprocs.c38_fastdiv"
   ],
   "note": ""
  },
  {
   "property": "C39",
   "status": "partial",
   "theorems": [
    "Zune.Imageprocs.c39_separate_partial",
    "Zune.Imageprocs.c39_none",
    "Zune.Imageprocs.c39_lumaA_wrong"
   ],
   "note": "False for LumaA (c39_lumaA_wrong)."
  },
  {
   "property": "C40",
   "status": "partial",
   "theorems": [
    "Zune.Pipe.c40_runs_all_once_partial",
    "Zune.Pipe.c40_built",
    "Zune.Pipe.c40_images_only_fails",
    "Zune.Pipe.c40_error_skips_images"
   ],
   "note": "Proved for pipelines with a decoder. False without one (c40_images_only_fails). After an error a retry silently skips work (c40_error_skips_images)."
  },
  {
   "property": "C41",
   "status": "partial",
   "theorems": [
    "Zune.Imageprocs.c41_threads_equal_sequential_partial",
    "Zune.Imageprocs.c41_finishing_schedule",
    "Zune.Imageprocs.c41_error_images_differ"
   ],
   "note": "For every interleaving: same outcome always, same image on success. On failure images differ (c41_error_images_differ)."
  },
  {
   "property": "C26",
   "status": "partial",
   "theorems": [
    "Zune.Bmp.c26_rgb24_partial",
    "Zune.Bmp.c26_rgb32_partial",
    "Zune.Bmp.c26_masks32_partial",
    "Zune.Bmp.c26_pal8_partial",
    "Zune.Bmp.c26_rgb16_partial",
    "Zune.Bmp.c26_packed_partial",
    "Zune.Bmp.c26_16bit_wrong",
    "Zune.Bmp.c26_4bit_wrong",
    "Zune.Bmp.c26_grey_wrong",
    "Zune.Bmp.c26_tiny_file_rejected"
   ],
   "note": "Whole files with a 40-byte information header, any padding bytes, both row orders. 24, 32 and paletted 8 bits for every size (file of at least 66 bytes; shorter ones are rejected: c26_tiny_file_rejected). False for 16 bits unless the stride happens to match the height, for 1/2/4 bits with padded rows, and for 8 bits without palette (witnesses)."
  },
  {
   "property": "C27",
   "status": "proved",
   "theorems": [
    "Zune.Bmp.c27_scaling",
    "Zune.Bmp.c27_scaling_bounds",
    "Zune.Bmp.c27_wide"
   ],
   "note": "Every contiguous mask at every position; fields wider than 8 bits give their top 8 bits."
  },
  {
   "property": "C55",
   "status": "proved",
   "theorems": [
    "Zune.Bmp.c55_rle8"
   ],
   "note": "Whole files, every command sequence that stays inside the bitmap."
  },
  {
   "property": "C56",
   "status": "partial",
   "theorems": [
    "Zune.Bmp.c56_rle4_partial",
    "Zune.Bmp.c56_last_eol_rejected"
   ],
   "note": "False when the top row ends with an end-of-line mark (rejected, c56_last_eol_rejected); proved otherwise."
  },
  {
   "property": "C09",
   "status": "partial",
   "theorems": [
    "Zune.Farbfeld.c09_encoder_partial",
    "Zune.Farbfeld.c09_decode_into_partial",
    "Zune.Farbfeld.c09_decode_always_fails",
    "Zune.Farbfeld.c09_decode_into_always_fails"
   ],
   "note": "False for every non-empty image: decode allocates half of what decode_into asks for (c09_decode_always_fails), and decode_into asks for twice the samples of the file (c09_decode_into_always_fails). Proved: the encoder writes exactly the farbfeld file; decode_into on a file followed by enough extra bytes starts with the samples of the image."
  },
  {
   "property": "C10",
   "status": "partial",
   "theorems": [
    "Zune.Ppm.c10_roundtrip8_partial",
    "Zune.Ppm.c10_roundtrip16_partial",
    "Zune.Ppm.c10_whitespace_fails",
    "Zune.Ppm.c10_whitespace16_fails"
   ],
   "note": "Round trip for every size, the four colorspaces and both depths when the first data byte is not whitespace or #; otherwise the decoder always fails on the file (c10_whitespace_fails, c10_whitespace16_fails)."
  },
  {
   "property": "C57",
   "status": "partial",
   "theorems": [
    "Zune.Ppm.c57_pfm_rows_partial",
    "Zune.Ppm.c57_odd_height_wrong"
   ],
   "note": "Proved for even heights and height 1. False for every odd height from 3 (c57_odd_height_wrong). Parsing of the scale as a float is a parameter; first data byte not whitespace or #."
  },
  {
   "property": "C11",
   "status": "partial",
   "theorems": [
    "Zune.Inflate.c11_roundtrip_partial",
    "Zune.Inflate.c11_default_partial",
    "Zune.Inflate.c11_over_limit"
   ],
   "note": "Exact: the round trip holds when the last 65535-byte block starts within the output limit (always up to 1 GiB with default options), and fails for every longer input (c11_over_limit)."
  },
  {
   "property": "C12",
   "status": "proved",
   "theorems": [
    "Zune.Inflate.c12_crc",
    "Zune.Inflate.c12_calc_crc",
    "Zune.Inflate.c12_adler"
   ],
   "note": "Both CRC implementations are the same code and tables. The Adler code is in the external crate simd_adler32; the model of it is the RFC algorithm."
  },
  {
   "property": "C15",
   "status": "partial",
   "theorems": [
    "Zune.Inflate.c15_limit_ignored",
    "Zune.Inflate.c11_over_limit"
   ],
   "note": "False: stored blocks are checked before, not after, they are copied (c15_limit_ignored). For streams of the encoder the check between blocks works (c11_over_limit)."
  },
  {
   "property": "C58",
   "status": "partial",
   "theorems": [
    "Zune.Inflate.c58_gzip_partial",
    "Zune.Inflate.c14_gzip_partial"
   ],
   "note": "Every header and footer; bodies made of stored blocks (right and wrong footers), and bodies of any blocks with the right footer (c14_gzip_partial); content within the output limit."
  },
  {
   "property": "C16",
   "status": "proved",
   "theorems": [
    "Zune.Png.c16_unfilter",
    "Zune.Png.c16_unknown",
    "Zune.Png.c16_encoder_up",
    "Zune.Png.c16_encoder_sub"
   ],
   "note": "all five filter types, scalar, SSE and portable SIMD code, rows of whole pixels of 1 to 8 bytes; unknown types are rejected. AVX2/NEON code not modelled"
  },
  {
   "property": "C17",
   "status": "proved",
   "theorems": [
    "Zune.Png.c17_paeth",
    "Zune.Png.c17_avg",
    "Zune.Png.c17_avg_sse",
    "Zune.Png.c17_paeth_sse",
    "Zune.Png.c17_paeth_portable"
   ],
   "note": "per byte and per SIMD lane"
  },
  {
   "property": "C18",
   "status": "proved",
   "theorems": [
    "Zune.Png.c18_roundtrip"
   ],
   "note": "8 and 16 bits, with EXIF and gamma; sizes between 1 and the decoder limits (max_width, max_height, below 2^32), other sizes are rejected by the decoder. decode_raw; the typed wrapper decode is not modelled"
  },
  {
   "property": "C19",
   "status": "proved",
   "theorems": [
    "Zune.Png.c19_partition",
    "Zune.Png.c19_inside",
    "Zune.Png.c19_interlaced"
   ],
   "note": "the refinement to the RFC pattern has the side conditions of C20 on alpha and colour keys"
  },
  {
   "property": "C20",
   "status": "partial",
   "theorems": [
    "Zune.Png.c20_file_partial",
    "Zune.Png.c20_last_row",
    "Zune.Png.c20_grey_palette",
    "Zune.Png.c20_no_palette"
   ],
   "note": "whole files of all colour types and depths; excluded are the combinations refuted by c20_last_row, c20_grey_palette, c20_no_palette, c21_swapped and c21_overwritten"
  },
  {
   "property": "C21",
   "status": "partial",
   "theorems": [
    "Zune.Png.c21_key_partial",
    "Zune.Png.c21_swapped",
    "Zune.Png.c21_overwritten"
   ],
   "note": "false on little endian machines: exactly the pixels equal to the byte-swapped key become transparent (c21_swapped, for all files)"
  },
  {
   "property": "C59",
   "status": "proved",
   "theorems": [
    "Zune.Png.c59_headers",
    "Zune.Png.c59_ancillary",
    "Zune.Png.c59_idat"
   ],
   "note": "acTL, fcTL, tIME, iCCP, iTXt, zTXt, tEXt chunks are not modelled; repeated PLTE/tRNS are excluded as ill-formed"
  },
  {
   "property": "C60",
   "status": "proved",
   "theorems": [
    "Zune.Png.c60_crc",
    "Zune.Png.c60_crc_header"
   ],
   "note": ""
  },
  {
   "property": "C61",
   "status": "partial",
   "theorems": [
    "Zune.Png.c61_order",
    "Zune.Png.c61_strip_partial",
    "Zune.Png.c61_strip_low"
   ],
   "note": "big endian output by default; strip together with little endian output keeps the less significant bytes (c61_strip_low, for all files)"
  },
  {
   "property": "C28",
   "status": "partial",
   "theorems": [
    "Zune.Chan.c28_storage_partial",
    "Zune.Chan.c28_fits",
    "Zune.Chan.c28_stale_layout",
    "Zune.Chan.c28_push_exact"
   ],
   "note": "Contents and bounds proved for every history from a capacity of at least 2 bytes. False: realloc passes a stale layout from the second growth on (c28_stale_layout, every history), and push fails at capacity 0 and 1 (c28_push_exact)."
  },
  {
   "property": "C29",
   "status": "proved",
   "theorems": [
    "Zune.Split.c29_planes",
    "Zune.Split.c29_planes_u8",
    "Zune.Split.c29_roundtrip",
    "Zune.Split.c29_roundtrip_u8",
    "Zune.Split.c29_roundtrip_planes",
    "Zune.Split.c29_roundtrip_planes_u8",
    "Zune.Split.c29_swizzle",
    "Zune.Split.c29_sse41_wrong"
   ],
   "note": "All element types, any component count, scalar and SSE2/SSSE3 code; c29_sse41_wrong is about dead code."
  },
  {
   "property": "C30",
   "status": "partial",
   "theorems": [
    "Zune.Depth.c30_8_16_8",
    "Zune.Depth.c30_8_f32_8",
    "Zune.Depth.c30_8_f32_16",
    "Zune.Depth.c30_16_f32_16_partial",
    "Zune.Depth.c30_16_f32_16_false"
   ],
   "note": "The first two round trips are proved; 16 to f32 to 16 is false (c30_16_f32_16_false), proved to lose at most one (c30_16_f32_16_partial)."
  },
  {
   "property": "C62",
   "status": "proved",
   "theorems": [
    "Zune.Chan.c62_typed_view",
    "Zune.Chan.c62_eq",
    "Zune.Chan.c62_clone",
    "Zune.Chan.c62_from_elm"
   ],
   "note": "With an allocator that accepts the stale layout of C28."
  },
  {
   "property": "C53",
   "status": "partial",
   "theorems": [
    "Zune.Guess.c53_exact",
    "Zune.Guess.c53_local",
    "Zune.Guess.c53_short_missed"
   ],
   "note": "Exact characterisation of the answer and of the final position of the reader; the answer depends on the first 16 bytes only. Partial: a stream with a valid signature that is shorter than a magic tried earlier is not recognised (c53_short_missed)."
  },
  {
   "property": "C54",
   "status": "partial",
   "theorems": [
    "Zune.Color.c54_encode_partial",
    "Zune.Color.sensible_all",
    "Zune.Color.c54_result_empty",
    "Zune.Color.c54_premultiplied_ignored",
    "Zune.Color.c54_alpha_dropped"
   ],
   "note": "False of the code: encode_to_result always returns no bytes (c54_result_empty). What encode writes is proved to be what the format writes for the converted image, for all seven encoders and six colour spaces."
  },
  {
   "property": "C63",
   "status": "partial",
   "theorems": [
    "Zune.Color.c63_layout_partial",
    "Zune.Color.c63_argb_wrong",
    "Zune.Color.c63_cmyk"
   ],
   "note": "Proved for all pairs of source RGB, RGBA, BGR, BGRA, Luma, LumaA and target RGB, RGBA, BGR, BGRA, ARGB. False for source ARGB (c63_argb_wrong)."
  },
  {
   "property": "C64",
   "status": "partial",
   "theorems": [
    "Zune.Color.c64_grey_partial",
    "Zune.Color.c64_luma",
    "Zune.Color.greyLane_eq",
    "Zune.Color.c64_simd_swapped",
    "Zune.Color.c64_simd_tail",
    "Zune.Color.c64_simd_last_black",
    "Zune.Color.c64_grey_drifts"
   ],
   "note": "Proved for the scalar code at 8 and 16 bits. False for the SIMD code (green and blue exchanged, remainder not written) and for grey pixels (white becomes 254)."
  },
  {
   "property": "C65",
   "status": "partial",
   "theorems": [
    "Zune.Color.c65_invariants_partial",
    "Zune.Color.c65_alpha_unchecked"
   ],
   "note": "Channel counts are proved for every colour space, sizes for those without alpha. False with alpha: the check skips alpha channels (DESIGN CS6)."
  },
  {
   "property": "C45",
   "status": "partial",
   "theorems": [
    "Zune.Jpeg.c45_selected_partial",
    "Zune.Jpeg.c45_avx2",
    "Zune.Jpeg.c45_range",
    "Zune.Jpeg.c45_clean_buffer",
    "Zune.Jpeg.c45_tile",
    "Zune.Jpeg.c45_wrap"
   ],
   "note": "Proved for every block with an AC coefficient, and for lone DC values in -131072..130043. Outside that range the full transform wraps around and differs from the shortcut (DESIGN J1)."
  },
  {
   "property": "C49",
   "status": "proved",
   "theorems": [
    "Zune.Jpeg.c49_zigzag_walk",
    "Zune.Jpeg.c49_permutation",
    "Zune.Jpeg.c49_corner",
    "Zune.Jpeg.c49_in_block",
    "Zune.Jpeg.c49_written",
    "Zune.Jpeg.c49_short"
   ],
   "note": "The table is finite and checked completely; decode_mcu_block writes only at table positions below the length it returns, whatever the stream, tables and reader state."
  },
  {
   "property": "C46",
   "status": "proved",
   "theorems": [
    "Zune.Jpeg.c46_grey",
    "Zune.Jpeg.c46_close",
    "Zune.Jpeg.c46_avx2",
    "Zune.Jpeg.c46_avx2_outside"
   ],
   "note": "Exact rational JFIF formula; bound 0.51, better than the claimed one unit. AVX2 equal to scalar for samples in 0..255."
  },
  {
   "property": "C66",
   "status": "partial",
   "theorems": [
    "Zune.Jpeg.c66_line_partial",
    "Zune.Jpeg.c66_unsupported",
    "Zune.Jpeg.c66_cmyk_rgba",
    "Zune.Jpeg.c66_ycck_rgba",
    "Zune.Jpeg.c66_two_bands"
   ],
   "note": "All supported pairs except those where the code is wrong: CMYK and YCCK to RGBA (J2, J3) and two bands (J4), with witnesses. One line per call, as post_process calls it."
  },
  {
   "property": "C47",
   "status": "proved",
   "theorems": [
    "Zune.Jpeg.c47_horizontal",
    "Zune.Jpeg.c47_vertical",
    "Zune.Jpeg.c47_both",
    "Zune.Jpeg.c47_between",
    "Zune.Jpeg.c47_generic"
   ],
   "note": "Scalar and AVX2 kernels equal the triangle filter over unbounded integers (so no i16 overflow) for every row of at least three samples, which the kernels assert and every component has; values lie between the two samples used; other ratios repeat the sample."
  },
  {
   "property": "C67",
   "status": "partial",
   "theorems": [
    "Zune.Jpeg.c67_picture_partial",
    "Zune.Jpeg.c67_plain",
    "Zune.Jpeg.c67_luma",
    "Zune.Jpeg.c67_generic_beside",
    "Zune.Jpeg.c67_first",
    "Zune.Jpeg.c67_stride",
    "Zune.Jpeg.c67_generic_tall"
   ],
   "note": "Proved for every frame whose first component has the largest factors, factors dividing them, and either no ratio V/HV or vertical maximum 2 without generic ratios; for frames without sampling and for grey output. Outside of that the code is wrong: J5 to J8. Missing: frames with components in several scans and progressive frames (finish_*_decoding), data that ends early."
  },
  {
   "property": "C42",
   "status": "proved",
   "theorems": [
    "Zune.Jpeg.c42_symbol",
    "Zune.Jpeg.c42_reject",
    "Zune.Jpeg.c42_accepts",
    "Zune.Jpeg.c42_unique"
   ],
   "note": "All tables, symbols and following bits; also which tables are accepted and that windows starting with no code are refused."
  },
  {
   "property": "C43",
   "status": "proved",
   "theorems": [
    "Zune.Jpeg.c43_fast",
    "Zune.Jpeg.c43_coverage"
   ],
   "note": "Every table and every window. The use of the entry inside the block loop is C68."
  },
  {
   "property": "C44",
   "status": "proved",
   "theorems": [
    "Zune.Jpeg.c44_extend"
   ],
   "note": "Every count of extra bits 1..16 and every value."
  },
  {
   "property": "C48",
   "status": "partial",
   "theorems": [
    "Zune.Jpeg.c48_word",
    "Zune.Jpeg.c48_segment",
    "Zune.Jpeg.c48_reads_partial",
    "Zune.Jpeg.c48_data_partial",
    "Zune.Jpeg.c48_stops_partial",
    "Zune.Jpeg.c48_unlisted"
   ],
   "note": "Every byte sequence and every sequence of read widths up to 32. Holds when the marker that ends the segment is one the decoder lists; for the others the statement is false of the code (J9, c48_unlisted)."
  },
  {
   "property": "C68",
   "status": "proved",
   "theorems": [
    "Zune.Jpeg.c68_roundtrip",
    "Zune.Jpeg.c68_discard"
   ],
   "note": "All tables, block sequences and component orders. The loop over the blocks of a scan is the specification decodeScan; mcu.rs itself (restart intervals, placement of blocks in lines) is C67 in part."
  },
  {
   "property": "C69",
   "status": "proved",
   "theorems": [
    "Zune.Jpeg.c69_scan",
    "Zune.Jpeg.c69_progressive"
   ],
   "note": "Encoders are relations (any encoding annex G allows), block orders are arbitrary lists without repetition (the orders of the code: C70). Restart intervals, parsing of the markers between the scans and the dequantisation at the end are not part of the model."
  },
  {
   "property": "C70",
   "status": "partial",
   "theorems": [
    "Zune.Jpeg.c70_size_partial",
    "Zune.Jpeg.c70_too_wide",
    "Zune.Jpeg.c70_too_tall",
    "Zune.Jpeg.c70_one",
    "Zune.Jpeg.c70_interleaved"
   ],
   "note": "Numbers of blocks are right for components with the largest factors and for 1x1 ones; for others the theorems c70_too_wide and c70_too_tall show that they are too large (J12). Order and absence of repetition are proved, given rows as long as the blocks need."
  },
  {
   "property": "C50",
   "status": "partial",
   "theorems": [
    "Zune.Jxl.c50_ycocg",
    "Zune.Jxl.c50_pixel8",
    "Zune.Jxl.c50_pixel16_partial",
    "Zune.Jxl.c50_ga16_wrong"
   ],
   "note": "Transform proved invertible without overflow for i16 and i32 pixels, and for every pixel of all 8-bit layouts and of 16-bit grey, RGB, RGBA. 16-bit grey with alpha reads signed values (c50_ga16_wrong, JX1)."
  },
  {
   "property": "C51",
   "status": "proved",
   "theorems": [
    "Zune.Jxl.c51_writer",
    "Zune.Jxl.c51_overflow",
    "Zune.Jxl.c51_sink"
   ],
   "note": "Both writers, every sequence of requests of at most 56 bits, padding, byte copies; requests beyond the allocation stop the encoder."
  },
  {
   "property": "C52",
   "status": "proved",
   "theorems": [
    "Zune.Jxl.c52_residual",
    "Zune.Jxl.c52_run"
   ],
   "note": "Against the hybrid integer decoder of ISO/IEC 18181-1 with the announced configurations."
  },
  {
   "property": "C71",
   "status": "proved",
   "theorems": [
    "Zune.Jxl.c71_prediction",
    "Zune.Jxl.decodes_unique"
   ],
   "note": ""
  },
  {
   "property": "C72",
   "status": "proved",
   "theorems": [
    "Zune.Jxl.c72_lengths",
    "Zune.Jxl.c72_code"
   ],
   "note": ""
  },
  {
   "property": "C73",
   "status": "partial",
   "theorems": [
    "Zune.Jxl.c73_channel_partial",
    "Zune.Jxl.reads_unique",
    "Zune.Jxl.c73_long_run_wrong"
   ],
   "note": "Proved for all channels whose runs fit the 32-bit word (always for runs up to 2055); false beyond: c73_long_run_wrong (JX2)."
  },
  {
   "property": "C13",
   "status": "proved",
   "theorems": [
    "Zune.Inflate.c13_litlen",
    "Zune.Inflate.c13_offset",
    "Zune.Inflate.c13_precode",
    "Zune.Inflate.c13_empty",
    "Zune.Inflate.c13_single",
    "Zune.Inflate.c13_overfull",
    "Zune.Inflate.c13_refused"
   ],
   "note": "For every complete code the three tables are built within their sizes (2342, 512, 128 entries: no abort, no error) and decode every codeword; the one-word and empty codes fill the table; every other code is refused."
  },
  {
   "property": "C14",
   "status": "partial",
   "theorems": [
    "Zune.Inflate.c14_deflate_partial",
    "Zune.Inflate.c14_zlib_partial",
    "Zune.Inflate.c14_gzip_partial",
    "Zune.Inflate.c14_flush_lost",
    "Zune.Inflate.c14_flush_rejected",
    "Zune.Inflate.c14_fast_underflow"
   ],
   "note": "Raw, zlib and gzip data with any sequence of stored, static and dynamic blocks as in RFC 1951 decode to the output of the RFC, through the fast and the careful loop, for any slack in the output vector. Partial because the property is false of the code: raw data with a stored block near the end can be rejected (c14_flush_lost, c14_flush_rejected), and a literal and a match of more than 56 bits make the bit counter wrap (c14_fast_underflow), so the theorems assume Fits; the output must be within the limit."
  },
  {
   "property": "C74",
   "status": "proved",
   "theorems": [
    "Zune.Jxl.c74_description",
    "Zune.Jxl.describes_unique"
   ],
   "note": ""
  },
  {
   "property": "C75",
   "status": "partial",
   "theorems": [
    "Zune.Jxl.c75_8bit",
    "Zune.Jxl.c75_16bit_partial",
    "Zune.Jxl.c75_checkerboard_panics",
    "Zune.Jxl.c75_red_blue_panics"
   ],
   "note": "Proved in full for 8 bits. For 16 bits proved where the room suffices; false otherwise, with two families of counterexamples (JX4)"
  },
  {
   "property": "C76",
   "status": "proved",
   "theorems": [
    "Zune.Jxl.c76_headers"
   ],
   "note": "The alpha channel of a 16-bit picture is declared as 8 bits (JX5); the theorem states what is written"
  },
  {
   "property": "C77",
   "status": "partial",
   "theorems": [
    "Zune.Jxl.c77_lossless_partial",
    "Zune.Jxl.c77_small",
    "Zune.Jxl.c77_ga16_wrong"
   ],
   "note": "Missing: runs of more than 2055 zero residuals (JX2) and 16-bit grey with alpha, for which the claim is false (JX1, c77_ga16_wrong). c77_small has no such condition"
  },
  {
   "property": "C78",
   "status": "partial",
   "theorems": [
    "Zune.Imageprocs.c78_pad_replicate",
    "Zune.Imageprocs.c78_pad_constant",
    "Zune.Imageprocs.c78_statistic_partial",
    "Zune.Imageprocs.c78_contrast_zero",
    "Zune.Imageprocs.c78_contrast_wrong"
   ],
   "note": "Padding proved in full; maximum, minimum, gradient proved in full and mean for windows whose sum fits 32 bits (always at 8 bits up to radius 2047). False for Contrast (IP1): c78_contrast_zero, c78_contrast_wrong."
  },
  {
   "property": "C79",
   "status": "partial",
   "theorems": [
    "Zune.Imageprocs.c79_rank_partial",
    "Zune.Imageprocs.c79_median_iff",
    "Zune.Imageprocs.c79_not_median",
    "Zune.Imageprocs.c79_radius_one",
    "Zune.Imageprocs.c79_radius_one_wrong"
   ],
   "note": "False of the code: it takes the sample one place below the median, and does nothing for radius 1 (IP2). Proved: the running histogram is exact and the result is exactly that rank."
  },
  {
   "property": "C80",
   "status": "partial",
   "theorems": [
    "Zune.Imageprocs.c80_blur_partial",
    "Zune.Imageprocs.c80_constant",
    "Zune.Imageprocs.c80_shift_wrong",
    "Zune.Imageprocs.c80_even_column",
    "Zune.Imageprocs.c80_even_wrong",
    "Zune.Imageprocs.c80_width_one"
   ],
   "note": "False of the code: windows displaced by one, wrong right border, columns not written for even windows, nothing for width 1 (IP3). Proved: what is stored at every sample for odd windows, and that one-colour pictures are kept."
  },
  {
   "property": "C81",
   "status": "partial",
   "theorems": [
    "Zune.Imageprocs.c81_north_south",
    "Zune.Imageprocs.c81_east_west_partial",
    "Zune.Imageprocs.c81_east_iff",
    "Zune.Imageprocs.c81_east_wrong"
   ],
   "note": "North and South as documented. East and West are exchanged (IP4)."
  },
  {
   "property": "C82",
   "status": "partial",
   "theorems": [
    "Zune.Imageprocs.c82_stretch_partial",
    "Zune.Imageprocs.c82_monotone",
    "Zune.Imageprocs.c82_not_linear"
   ],
   "note": "Bounds, order and error proved; between the bounds the divisor is one too large (IP5), c82_not_linear."
  },
  {
   "property": "C83",
   "status": "proved",
   "theorems": [
    "Zune.Jpeg.c83_dqt"
   ],
   "note": "Iff, for every state and byte string. Elements equal to 0 count as allowed."
  },
  {
   "property": "C84",
   "status": "proved",
   "theorems": [
    "Zune.Jpeg.c84_dht_sound",
    "Zune.Jpeg.c84_dht_complete"
   ],
   "note": "Soundness and completeness; decoding in the sense of C42."
  },
  {
   "property": "C85",
   "status": "partial",
   "theorems": [
    "Zune.Jpeg.c85_sof_partial",
    "Zune.Jpeg.c85_factor_three"
   ],
   "note": "Iff, with the restrictions of the code in the statement: at most four components and no horizontal factor of 3; the latter is legal in T.81 and always refused (J13, c85_factor_three)."
  },
  {
   "property": "C86",
   "status": "proved",
   "theorems": [
    "Zune.Jpeg.c86_sos"
   ],
   "note": "Iff. Table numbers up to 15 and any Ss, Se up to 63 count as allowed, their use is checked later."
  },
  {
   "property": "C87",
   "status": "partial",
   "theorems": [
    "Zune.Jpeg.c87_headers_partial",
    "Zune.Jpeg.c87_dri",
    "Zune.Jpeg.c87_app14_wrong",
    "Zune.Jpeg.c87_app14_refused",
    "Zune.Jpeg.c87_app0_wrong",
    "Zune.Jpeg.c87_stuffed"
   ],
   "note": "False for APP14 segments that are not Adobe (J14), APP0 segments of four bytes (J15); marker codes after FF 00 are not taken (J16). Proved for all other files."
  },
  {
   "property": "C88",
   "status": "partial",
   "theorems": [
    "Zune.Jpeg.c88_colour_partial",
    "Zune.Jpeg.c88_late_adobe"
   ],
   "note": "Proved when the Adobe segment comes before the frame header and the components are not named R, G, B in spite of it; false for a grey frame followed by an Adobe segment (J17)."
  },
  {
   "property": "C89",
   "status": "partial",
   "theorems": [
    "Zune.Jpeg.c89_icc_partial",
    "Zune.Jpeg.c89_file",
    "Zune.Jpeg.c89_icc_255"
   ],
   "note": "Iff for up to 254 pieces; 255 pieces are refused (J18)."
  },
  {
   "property": "C90",
   "status": "proved",
   "theorems": [
    "Zune.Jpeg.c90_headers_safe"
   ],
   "note": "All byte strings. Allocation failure is not modelled."
  },
  {
   "property": "C91",
   "status": "partial",
   "theorems": [
    "Zune.Jpeg.c91_sequential_partial",
    "Zune.Jpeg.c91_rows_lost",
    "Zune.Jpeg.c91_scan_order",
    "Zune.Jpeg.c91_last_interval",
    "Zune.Jpeg.c91_interval_kept",
    "Zune.Jpeg.c91_tables_early",
    "Zune.Jpeg.c91_tables_kept",
    "Zune.Jpeg.c91_panic"
   ],
   "note": "Proved for files with one scan (whole file to pixels). False for several scans (J19 to J25, each by a file). Also partial: sampling factors as in C67, headers as in C87 and C88, DC overflow (J1), CMYK to RGBA (J2, J3)."
  },
  {
   "property": "C92",
   "status": "partial",
   "theorems": [
    "Zune.Jpeg.c92_grey_partial"
   ],
   "note": "First component with the largest factors, not 1x2 (there the decoder reads twice the rows of MCUs); one scan."
  },
  {
   "property": "C93",
   "status": "partial",
   "theorems": [
    "Zune.Jpeg.c93_terminates",
    "Zune.Jpeg.c93_reading",
    "Zune.Jpeg.c93_no_panic_partial",
    "Zune.Jpeg.c91_panic"
   ],
   "note": "Termination and reading for all bytes; the MCU loop if the first scan names all components, else false (J25). post_process is apart (C67)."
  },
  {
   "property": "C94",
   "status": "partial",
   "theorems": [
    "Zune.Png.c94_chunks_partial",
    "Zune.Png.c94_long_keyword",
    "Zune.Png.c94_itxt",
    "Zune.Png.c94_itxt_language",
    "Zune.Png.c94_actl_length",
    "Zune.Png.c94_signature"
   ],
   "note": "All chunk sequences; keywords below 79 bytes (else false, PT3), iTXt uncompressed and without language (else false, PT1, PT2), acTL of eight bytes (PA8). zlib is a parameter."
  },
  {
   "property": "C95",
   "status": "partial",
   "theorems": [
    "Zune.Png.c95_frames_partial",
    "Zune.Png.c95_raw_after_last",
    "Zune.Png.c95_chunk_between"
   ],
   "note": "All files whose fcTL is followed by IDAT or fdAT at once; else false (PA6)."
  },
  {
   "property": "C96",
   "status": "partial",
   "theorems": [
    "Zune.Png.c96_animation_partial",
    "Zune.Png.c96_background",
    "Zune.Png.c96_previous",
    "Zune.Png.c96_alpha",
    "Zune.Png.c96_over_opaque",
    "Zune.Png.c96_default_image",
    "Zune.Png.c96_interlaced",
    "Zune.Png.c96_empty_frame"
   ],
   "note": "Animations that leave the canvas as it is and lay only over opaque pixels, at most 8 bits; every other case is false (PA1 to PA5, PA7, PA10). The blending formula (floats) is a parameter."
  },
  {
   "property": "C97",
   "status": "partial",
   "theorems": [
    "Zune.Jpeg.c97_progressive_partial",
    "Zune.Jpeg.c97_grey_partial",
    "Zune.Jpeg.c97_marker_missing",
    "Zune.Jpeg.c97_last_interval",
    "Zune.Jpeg.c97_marker_unknown",
    "Zune.Jpeg.c97_table_unused",
    "Zune.Jpeg.c97_half_lost",
    "Zune.Jpeg.c97_quant_late"
   ],
   "note": "All scripts of scans and all outputs of C91, C92, whole files from bytes to pixels; excluded are the cases in which it is false (J26 to J31, c70_too_wide) and those of C91."
  },
  {
   "property": "C98",
   "status": "partial",
   "theorems": [
    "Zune.Jpeg.c98_terminates",
    "Zune.Jpeg.c98_reading",
    "Zune.Jpeg.c98_no_panic_partial",
    "Zune.Jpeg.c98_panic"
   ],
   "note": "Termination and the reading of headers, bits and blocks hold for all bytes. No panic outside post_process for all progressive files but those of J32 (one or two components declared YCCK), and for the other files as C93."
  },
  {
   "property": "C99",
   "status": "partial",
   "theorems": [
    "Zune.Imageprocs.c99_root",
    "Zune.Imageprocs.c99_root_sqrt",
    "Zune.Imageprocs.c99_edges_partial",
    "Zune.Imageprocs.c99_right_partial",
    "Zune.Imageprocs.c99_corner_wrong",
    "Zune.Imageprocs.c99_sixteen_wrong"
   ],
   "note": "False of the code: all three filters use the neighbour below instead of the one below right in the horizontal kernel (IP9), and squares overflow at 16 bits (IP10). Proved: the filters compute the magnitude for the kernel the code has, the horizontal result is right where the two neighbours agree, the root is exact."
  },
  {
   "property": "C100",
   "status": "partial",
   "theorems": [
    "Zune.Imageprocs.c100_blend",
    "Zune.Imageprocs.c100_plain",
    "Zune.Imageprocs.c100_over_partial",
    "Zune.Imageprocs.c100_gravity",
    "Zune.Imageprocs.c100_reject",
    "Zune.Imageprocs.c100_alpha_wrong",
    "Zune.Imageprocs.c100_transparent_wrong",
    "Zune.Imageprocs.c100_luma_wrong",
    "Zune.Imageprocs.c100_panic"
   ],
   "note": "Proved for pictures without alpha and for the colour channels of RGBA, BGRA, ARGB. False of the code: the alpha channel (IP11), colours on destinations that are not opaque (IP12), LumaA (IP13), Src and Dst with alpha panic, DstIn does nothing (IP14). f32 samples are not modelled."
  },
  {
   "property": "C101",
   "status": "partial",
   "theorems": [
    "Zune.Imageprocs.c101_dims_partial",
    "Zune.Imageprocs.c101_dims_wrong",
    "Zune.Imageprocs.c101_arbitrary",
    "Zune.Imageprocs.c101_turn",
    "Zune.Imageprocs.c101_zero_wrong"
   ],
   "note": "False of the code: for many sizes the picture is said to be one column wider than it is (IP15), zero degrees whitens the last row and column (IP16). Sine and cosine are parameters."
  },
  {
   "property": "C102",
   "status": "partial",
   "theorems": [
    "Zune.Imageprocs.c102_orient_partial",
    "Zune.Imageprocs.c102_half_turn_wrong",
    "Zune.Imageprocs.c102_stays",
    "Zune.Imageprocs.c102_twice"
   ],
   "note": "Proved for 8-bit channels; false of the code for orientation 3 (IP17), and where quarter turns get wrong dimensions (IP15)."
  },
  {
   "property": "C103",
   "status": "partial",
   "theorems": [
    "Zune.Imageprocs.c103_brighten",
    "Zune.Imageprocs.c103_contrast",
    "Zune.Imageprocs.c103_contrast_ends",
    "Zune.Imageprocs.c103_exposure",
    "Zune.Imageprocs.c103_gamma",
    "Zune.Imageprocs.c103_gamma_one",
    "Zune.Imageprocs.c103_exposure_zero",
    "Zune.Imageprocs.c103_gamma_one_wrong"
   ],
   "note": "Formulas, errors and order proved. False of the code: the exposure documented as default is not neutral (IP18), gamma 1 changes 16-bit samples (IP19). f32 samples are not modelled, powf is a parameter."
  },
  {
   "property": "C104",
   "status": "proved",
   "theorems": [
    "Zune.Imageprocs.c104_convolve",
    "Zune.Imageprocs.c104_exact",
    "Zune.Imageprocs.c104_error"
   ],
   "note": "8 and 16 bit samples; f32 samples are not modelled. The weights are not mirrored (correlation)."
  },
  {
   "property": "C105",
   "status": "partial",
   "theorems": [
    "Zune.Gif.c105_headers",
    "Zune.Gif.c105_signature",
    "Zune.Gif.c105_truncated_wrong",
    "Zune.Gif.c105_no_pixels"
   ],
   "note": "Headers proved. False of the code: cut off tables are accepted (G1), no picture is ever decoded (G2)."
  },
  {
   "property": "C106",
   "status": "partial",
   "theorems": [
    "Zune.Imageprocs.c106_blend",
    "Zune.Imageprocs.c106_above_wrong",
    "Zune.Imageprocs.c106_channels",
    "Zune.Imageprocs.c106_matrix",
    "Zune.Imageprocs.c106_identity",
    "Zune.Imageprocs.c106_invert_doc"
   ],
   "note": "Sums proved. False of the code: alphas above 1 do not give the source (IP20), the documented inverting matrix does not invert (IP21). f32 samples are not modelled."
  },
  {
   "property": "C107",
   "status": "partial",
   "theorems": [
    "Zune.Imageprocs.c107_formula",
    "Zune.Imageprocs.c107_grey",
    "Zune.Imageprocs.c107_black",
    "Zune.Imageprocs.c107_neutral_partial",
    "Zune.Imageprocs.c107_neutral_wrong",
    "Zune.Imageprocs.c107_negative_wrong"
   ],
   "note": "False of the code: the neutral setting loses blue (IP22), negative lightness is not always black (IP23). Sine and cosine are parameters; f32 samples are not modelled."
  },
  {
   "property": "C108",
   "status": "partial",
   "theorems": [
    "Zune.Imageprocs.c108_u8_partial",
    "Zune.Imageprocs.c108_darker_wrong",
    "Zune.Imageprocs.c108_u16_partial",
    "Zune.Imageprocs.c108_wrap_wrong"
   ],
   "note": "The step after blurring. False of the code: at 8 bits darker samples are brightened, at 16 bits bright ones wrap around (IP24); the module is marked broken."
  },
  {
   "property": "C109",
   "status": "partial",
   "theorems": [
    "Zune.Imageprocs.c109_ends",
    "Zune.Imageprocs.c109_channel",
    "Zune.Imageprocs.c109_monotone",
    "Zune.Imageprocs.c109_linear_wrong",
    "Zune.Imageprocs.c109_dark_wrong"
   ],
   "note": "False of the code: Linear makes everything black (IP25), 8-bit dark samples are lost on the way there and back (IP26). powf and log10 are parameters; monotony is shown for the linearising tables of sRGB and gamma 2.2. f32 samples are not modelled."
  },
  {
   "property": "C110",
   "status": "partial",
   "theorems": [
    "Zune.Imageprocs.c110_bilinear",
    "Zune.Imageprocs.c110_constant_partial",
    "Zune.Imageprocs.c110_white_wrong",
    "Zune.Imageprocs.c110_same_wrong"
   ],
   "note": "Formula proved with its error. False of the code: one colour is not always kept (IP27), the same size is not the identity (IP28). f32 samples are not modelled."
  },
  {
   "property": "C111",
   "status": "partial",
   "theorems": [
    "Zune.Imageprocs.c111_separable",
    "Zune.Imageprocs.c111_constant_partial",
    "Zune.Imageprocs.c111_white_wrong",
    "Zune.Imageprocs.c111_unit",
    "Zune.Imageprocs.c111_skips"
   ],
   "note": "Weighted sums proved for every kernel. False of the code: one colour is not always kept (IP27). c111_skips: shrinking below a sixth ignores columns (IP29). The sines of the Lanczos and sinc kernels are not modelled (any function may be the kernel); f32 samples are not modelled."
  },
  {
   "property": "C112",
   "status": "partial",
   "theorems": [
    "Zune.Imageprocs.c112_smaller",
    "Zune.Imageprocs.c112_exact_wrong",
    "Zune.Imageprocs.c112_zero_wrong",
    "Zune.Imageprocs.c112_larger_wrong"
   ],
   "note": "Fitting into the box proved up to one unit. False of the code: exact boxes are missed by one, heights can be 0, the function for the larger dimension is the other one again (IP30)."
  },
  {
   "property": "C113",
   "status": "partial",
   "theorems": [
    "Zune.Imageprocs.c113_mean_partial",
    "Zune.Imageprocs.c113_range",
    "Zune.Imageprocs.c113_constant",
    "Zune.Imageprocs.c113_panic_one",
    "Zune.Imageprocs.c113_panic_two",
    "Zune.Imageprocs.c113_not_positive",
    "Zune.Imageprocs.c113_below_wrong",
    "Zune.Imageprocs.c113_disk_wrong"
   ],
   "note": "Weighted mean up to 5/8 (rounding included), range and constancy proved for all weights between 2^-250 and 1. False of the code: the samples are the first ones of the square instead of those of the disk (IP31), diameters 1 and 2 panic (IP32), and a diameter that is not positive does nothing (IP33). The weights (exp) are parameters; f32 samples are not modelled."
  },
  {
   "property": "C114",
   "status": "partial",
   "theorems": [
    "Zune.Imageprocs.c114_blur_partial",
    "Zune.Imageprocs.c114_constant",
    "Zune.Imageprocs.c114_widths",
    "Zune.Imageprocs.c114_variance",
    "Zune.Imageprocs.c114_wide_wrong",
    "Zune.Imageprocs.c114_zero_wrong",
    "Zune.Imageprocs.c114_step_wrong"
   ],
   "note": "Rows, columns, constancy, widths and their variance proved. False of the code: the widths are used as radii, so that the deviation is about doubled (IP34), sigma 0 blurs (IP35), and whole sigma get a variance of sigma\u00b2 + sigma (IP36). Sides of 8 and more only; what one box blur computes is C80; the root of f32 is a parameter; f32 samples are not modelled."
  },
  {
   "property": "C115",
   "status": "partial",
   "theorems": [
    "Zune.Imageprocs.c115_affine_partial",
    "Zune.Imageprocs.c115_dims",
    "Zune.Imageprocs.c115_inverse",
    "Zune.Imageprocs.c115_compose",
    "Zune.Imageprocs.c115_translation_wrong",
    "Zune.Imageprocs.c115_small_wrong",
    "Zune.Imageprocs.c115_quarter_wrong",
    "Zune.Imageprocs.c115_then_wrong"
   ],
   "note": "Samples, dimensions, inverse and product proved with their errors in f32. False of the code: the last row and column become white even under the identity (IP37), tiny scales are refused (IP38), translations have no effect (IP39), quarter turns are off by one (IP40), then applies its argument first (IP41). Overflow and NaN of f32, and f32 samples, are not modelled."
  },
  {
   "property": "C116",
   "status": "proved",
   "theorems": [
    "Zune.Hsv.c116_hsv",
    "Zune.Hsv.c116_rgb",
    "Zune.Hsv.c116_roundtrip",
    "Zune.Hsv.c116_channels"
   ],
   "note": "Finite f32 as rationals rounded to 24 bits; underflow is not modelled."
  },
  {
   "property": "C117",
   "status": "proved",
   "theorems": [
    "Zune.Hsv.c117_hsl",
    "Zune.Hsv.c117_rgb",
    "Zune.Hsv.c117_roundtrip",
    "Zune.Hsv.c117_channels",
    "Zune.Hsv.c117_white_wrong"
   ],
   "note": "Finite f32 as rationals rounded to 24 bits; underflow is not modelled. The saturation itself is far off near white (CS7), its product with the room is not."
  },
  {
   "property": "C118",
   "status": "proved",
   "theorems": [
    "Zune.Hsv.c118_hsv_holds",
    "Zune.Hsv.c118_hsl_holds",
    "Zune.Hsv.c118_rgb_holds",
    "Zune.Hsv.c118_rgb_of_hsl_holds",
    "Zune.Hsv.c118_hsv",
    "Zune.Hsv.c118_hsl",
    "Zune.Hsv.c118_yellow_wrong"
   ],
   "note": "Finite f32 as rationals rounded to 24 bits. The bound is about truncation of hue, saturation and value to whole samples; CS8 shows that 8-bit yellow is changed."
  },
  {
   "property": "C119",
   "status": "partial",
   "theorems": [
    "Zune.Jpeg.c119_idct",
    "Zune.Jpeg.c119_selected_partial",
    "Zune.Jpeg.c119_clean_buffer",
    "Zune.Jpeg.c119_color",
    "Zune.Jpeg.c119_line",
    "Zune.Jpeg.c119_horizontal",
    "Zune.Jpeg.c119_vertical",
    "Zune.Jpeg.c119_both"
   ],
   "note": "Equality of kernels is unconditional (horizontal upsampling: samples 0..255); partial only in c119_selected_partial, as C45: a lone DC value must be in the range where the full transform does not wrap around. The NEON instructions are modelled lane by lane."
  },
  {
   "property": "C120",
   "status": "partial",
   "theorems": [
    "Zune.Imageprocs.c120_tile16",
    "Zune.Imageprocs.c120_tile8",
    "Zune.Imageprocs.c120_tile4",
    "Zune.Imageprocs.c120_transpose_partial",
    "Zune.Imageprocs.c120_same",
    "Zune.Imageprocs.c120_twice_partial",
    "Zune.Imageprocs.c120_narrow_wrong"
   ],
   "note": "Proved for every picture at least one tile wide (8 samples, 4 for floats), of any height; narrower ones go to the scalar code, which panics or loses them (c120_narrow_wrong), so the full claim is false. Equality with the scalar code holds from 8x8 on, where the scalar code is right."
  },
  {
   "property": "C121",
   "status": "partial",
   "theorems": [
    "Zune.Imageprocs.c121_edges_partial",
    "Zune.Imageprocs.c121_flat",
    "Zune.Imageprocs.c121_scharr_flat_wrong",
    "Zune.Imageprocs.c121_corner_wrong"
   ],
   "note": "The length of the gradient up to gain*M/2^19 is proved for the matrices the code applies; they differ from the documented ones (c121_corner_wrong) and the Scharr filter does not vanish on flat pictures (c121_scharr_flat_wrong), so the full claim is false. f32 has unbounded exponents in the model."
  },
  {
   "property": "C122",
   "status": "proved",
   "theorems": [
    "Zune.Jpeg.c122_horizontal",
    "Zune.Jpeg.c122_vertical",
    "Zune.Jpeg.c122_both"
   ],
   "note": "std::simd operations are modelled lane by lane. Horizontally the samples are 0..255, as the scalar code overflows (panics when checked) on others."
  },
  {
   "property": "C123",
   "status": "partial",
   "theorems": [
    "Zune.Inflate.Hc.c123_count",
    "Zune.Inflate.Hc.c123_replay",
    "Zune.Inflate.Hc.c123_deflate",
    "Zune.Inflate.Hc.c123_no_panic_partial",
    "Zune.Inflate.Hc.c123_past_end_wrong",
    "Zune.Inflate.Hc.c123_last_wrong"
   ],
   "note": "Partial correctness is proved for all tables and blocks, totality only if the first match is taken (nice_length < min_length) and for less than 16 MiB: otherwise the code panics (c123_past_end_wrong). The last sequence has a match that is not there (c123_last_wrong). usize is 64 bits little endian."
  },
  {
   "property": "C124",
   "status": "proved",
   "theorems": [
    "Zune.Make.c124_from_pixels",
    "Zune.Make.c124_from_bytes",
    "Zune.Make.c124_fill",
    "Zune.Make.c124_from_fn",
    "Zune.Make.c124_from_fn_set",
    "Zune.Make.c124_from_fn_carry_wrong",
    "Zune.Make.c124_modify",
    "Zune.Make.c124_bytes",
    "Zune.Make.c124_equal_shape_wrong"
   ],
   "note": "Zero-sized channels are left to C28. u16_to_big_endian is treated for frames with as many channels as components. Two surprises are recorded beside the property: from_fn passes on the pixel before (c124_from_fn_carry_wrong), == ignores the shape (c124_equal_shape_wrong)."
  },
  {
   "property": "C125",
   "status": "partial",
   "theorems": [
    "Zune.Hdr.File.c125_headers",
    "Zune.Hdr.File.c125_file_partial",
    "Zune.Hdr.File.c125_values_partial",
    "Zune.Hdr.File.c125_scanline_partial",
    "Zune.Hdr.File.c125_encode_order_partial",
    "Zune.Hdr.File.c125_values_wrong",
    "Zune.Hdr.File.c125_dark_exponent",
    "Zune.Hdr.File.c125_dark_wrong",
    "Zune.Hdr.File.c125_equals_wrong",
    "Zune.Hdr.File.c125_size_wrong"
   ],
   "note": "Headers and RGBE bytes are proved; values for exponent bytes 0 and 97 to 159 only, all others are refuted (c125_values_wrong). Pixels do not survive the encoder in the dark (c125_dark_wrong); its accuracy for bright pixels is not modelled, it depends on exp2 of the platform. Keys and values must not contain line feeds, equals signs (c125_equals_wrong) or blanks at their ends, and be ASCII. The buffer size is refuted (c125_size_wrong). Scanlines outside 8 to 32767 pixels are those of C23."
  },
  {
   "property": "C126",
   "status": "partial",
   "theorems": [
    "Zune.Save.c126_qoi_exact",
    "Zune.Save.c126_qoi",
    "Zune.Save.c126_ppm_partial",
    "Zune.Save.c126_ppm_converted_partial",
    "Zune.Save.c126_ppm_wrong",
    "Zune.Save.c126_farbfeld_wrong",
    "Zune.Save.c126_premultiplied_wrong"
   ],
   "note": "QOI is proved in full, PPM for all pictures but those with a white space character or # as first byte, for which it is refuted (c126_ppm_wrong); farbfeld files can never be opened (c126_farbfeld_wrong); the mark of premultiplied alpha is lost (c126_premultiplied_wrong). Only the first frame is saved, as documented. ARGB and the colour spaces computed in floating point are left out as in C54; PNG, JPEG, JPEG XL and HDR files are not composed here."
  },
  {
   "property": "C127",
   "status": "partial",
   "theorems": [
    "Zune.Capi.c127_colors",
    "Zune.Capi.c127_from_u8",
    "Zune.Capi.c127_from_u16_wrong",
    "Zune.Capi.c127_from_f32_wrong",
    "Zune.Capi.c127_write_u8_partial",
    "Zune.Capi.c127_write_u16_partial",
    "Zune.Capi.c127_write_luma_wrong",
    "Zune.Capi.c127_write_u8_more",
    "Zune.Capi.c127_write_u16_more",
    "Zune.Capi.c127_write_bands_wrong"
   ],
   "note": "from_u8 is proved in full, including when it returns null and when it ends the process (no samples at all). from_u16 and from_f32 count samples as bytes and never make a picture (c127_from_u16_wrong, c127_from_f32_wrong). write_to_output is proved for memory of exactly the size asked for, 8 and 16 bits; for larger memory with two to four channels the rest is left alone (c127_write_u8_more, c127_write_u16_more); larger memory ends the process for pictures with one channel (c127_write_luma_wrong) or more than four (c127_write_bands_wrong); floats are not covered."
  },
  {
   "property": "C128",
   "status": "partial",
   "theorems": [
    "Zune.Capi.c128_status_new",
    "Zune.Capi.c128_report",
    "Zune.Capi.c128_reports",
    "Zune.Capi.c128_status_free_wrong",
    "Zune.Capi.c128_image_new_wrong",
    "Zune.Capi.c128_free_and_null",
    "Zune.Capi.c128_imdecode",
    "Zune.Capi.c128_imdecode_leak_wrong",
    "Zune.Capi.c128_imdecode_fails",
    "Zune.Capi.c128_null"
   ],
   "note": "Making a status, reports and zil_free_and_null are proved, success of zil_imdecode too. Refuted: zil_status_free frees the message twice for every status, zil_zimg_new drops uninitialised memory at every call, zil_imdecode loses the memory of the samples when decoding fails. The case that malloc has no memory is modelled, but nothing is proved about it."
  },
  {
   "property": "C129",
   "status": "partial",
   "theorems": [
    "Zune.Capi.c129_ppm_partial",
    "Zune.Capi.c129_ppm_bad",
    "Zune.Capi.c129_qoi_wrong",
    "Zune.Capi.c129_png_wrong",
    "Zune.Capi.c129_farbfeld_wrong"
   ],
   "note": "Proved for PPM and PAM files of 8 and 16 bits, good and bad. Refuted for QOI (every file fails, it is given to the decoder for JPEG), PNG (every file with good headers ends the process, the depth is asked for before the headers are read) and farbfeld (no file can be decoded into less than twice the memory its samples need). Files with floats, PSD, BMP, HDR, JPEG and JPEG XL are not covered; that the headers of a PNG file are good is a hypothesis on the abstract decode_info. Memory written by one of the abstract decoders before it fails is taken as unchanged."
  },
  {
   "property": "C130",
   "status": "partial",
   "theorems": [
    "Zune.Capi.c130_enums",
    "Zune.Capi.c130_guess",
    "Zune.Capi.c130_ppm",
    "Zune.Capi.c130_qoi",
    "Zune.Capi.c130_farbfeld",
    "Zune.Capi.c130_unknown",
    "Zune.Capi.c130_agrees",
    "Zune.Capi.c130_read_fails",
    "Zune.Capi.c130_read_stale_wrong"
   ],
   "note": "Refuted in one point: zil_zimg_read_from_memory leaves an earlier error in the status when it succeeds. The headers of PNG, JPEG, PSD, BMP, HDR and JPEG XL files and of PPM files with floats are not covered by the exact statements; c130_agrees holds whatever their decoders are. Messages always find memory."
  },
  {
   "property": "C131",
   "status": "partial",
   "theorems": [
    "Zune.Imageprocs.c131_threads_partial",
    "Zune.Imageprocs.c131_u8_partial",
    "Zune.Imageprocs.c131_u16_partial",
    "Zune.Imageprocs.c131_constant",
    "Zune.Imageprocs.c131_threshold_wrong"
   ],
   "note": "the executions agree for 16 bits and for 8-bit thresholds up to 255; refuted above: without threads only the low 8 bits of the threshold count; samples darker than the blur (8 bits) and sums above 16 bits are refuted in C108"
  },
  {
   "property": "C132",
   "status": "partial",
   "theorems": [
    "Zune.Files.c132_extensions",
    "Zune.Files.c132_save",
    "Zune.Files.c132_prefix",
    "Zune.Files.c132_success_partial",
    "Zune.Files.c132_refused",
    "Zune.Files.c132_hidden",
    "Zune.Files.c132_qoi_back",
    "Zune.Files.c132_case_wrong",
    "Zune.Files.c132_lost_wrong",
    "Zune.Files.c132_full_wrong"
   ],
   "note": "with room on the device the file is exact for every buffering; refuted: a failing encoder empties the file that was there, a full device is not noticed for files smaller than the buffer, capital letters are refused; Path::extension and BufWriter of the standard library are modelled from their documentation"
  },
  {
   "property": "C133",
   "status": "partial",
   "theorems": [
    "Zune.Capi.c133_null",
    "Zune.Capi.c133_fails",
    "Zune.Capi.c133_same_partial",
    "Zune.Capi.c133_stale_wrong",
    "Zune.Capi.c133_unchecked_wrong",
    "Zune.Capi.c133_invert_wrong"
   ],
   "note": "the same for supported sound pictures and a status without an error; refuted: execute_impl is called instead of execute, so unsupported pictures are changed (BGR is inverted), and success does not clear the status; operations are abstract, Invert is the instance"
  },
  {
   "property": "C134",
   "status": "partial",
   "theorems": [
    "Zune.Arith.c134_mismatch",
    "Zune.Arith.c134_u8_partial",
    "Zune.Arith.c134_u16_partial",
    "Zune.Arith.c134_frames",
    "Zune.Arith.c134_lumaA_wrong"
   ],
   "note": "all colour spaces but LumaA, for 8 and 16 bits; refuted for LumaA, where alpha is added and the grey values stay; arithmetic of floats is a parameter"
  },
  {
   "property": "C135",
   "status": "partial",
   "theorems": [
    "Zune.Options.c135_set_partial",
    "Zune.Options.c135_image",
    "Zune.Options.c135_jpeg",
    "Zune.Options.c135_progressive_wrong",
    "Zune.Options.c135_strip_wrong",
    "Zune.Options.c135_exif_wrong"
   ],
   "note": "all options but the flags; refuted for progressive JPEG, which is never on, and for stripping of metadata, which does the opposite"
  },
  {
   "property": "C136",
   "status": "partial",
   "theorems": [
    "Zune.Options.c136_begin",
    "Zune.Options.c136_set",
    "Zune.Options.c136_present",
    "Zune.Options.c136_strict",
    "Zune.Options.c136_strict_partial",
    "Zune.Options.c136_strict_wrong",
    "Zune.Options.c136_unsafe_wrong"
   ],
   "note": "values set last and presence of features; refuted that intrinsics can be turned off, and for strict mode when checksums are asked for"
  },
  {
   "property": "C137",
   "status": "partial",
   "theorems": [
    "Zune.Workflow.c137_one_format_partial",
    "Zune.Workflow.c137_decode",
    "Zune.Workflow.c137_encode",
    "Zune.Workflow.c137_formats_wrong",
    "Zune.Workflow.c137_stdin_wrong",
    "Zune.Workflow.c137_silent_wrong"
   ],
   "note": "files as input and outputs of one format; refuted for outputs of several formats, for standard input and for outputs of unknown formats; output to standard output, and failures of operations, are left out"
  },
  {
   "property": "C138",
   "status": "partial",
   "theorems": [
    "Zune.Numpy.c138_bytes_partial",
    "Zune.Numpy.c138_u16_partial",
    "Zune.Numpy.c138_floats_partial",
    "Zune.Numpy.c138_animation",
    "Zune.Numpy.c138_refused",
    "Zune.Numpy.c138_one_wrong",
    "Zune.Numpy.c138_u32_wrong",
    "Zune.Numpy.c138_empty_wrong"
   ],
   "note": "arrays with elements of all types but uint32, without a third axis of one; refuted for these and for arrays without elements"
  }
 ]
}