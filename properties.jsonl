{"id": "C01", "title": "QOI encode/decode is lossless", "statement": "Encoding any 8-bit RGB or RGBA image with the QOI encoder and decoding the produced bytes with the QOI decoder succeeds and returns exactly the original pixel bytes, width, height and colorspace.", "quantifier": "every width and height in 1..2^32-1 (within the decoder's dimension limits), both colorspaces, every pixel buffer of the right length", "why_tests_cant": "The encoder is stateful (64-slot colour cache, run counter, previous pixel) and encoder and decoder update their caches at different moments; agreement depends on the whole pixel history.", "anchors": ["crates/zune-qoi/src/encoder.rs: QoiEncoder::encode", "crates/zune-qoi/src/decoder.rs: QoiDecoder::decode, decode_headers, decode_into"]}
{"id": "C02", "title": "QOI output size is bounded", "statement": "The QOI encoder never produces more than width*height*(components+1)+22 bytes.", "quantifier": "every valid image", "why_tests_cant": "The worst case is reached by a combination of chunk kinds over an arbitrary pixel sequence.", "anchors": ["crates/zune-qoi/src/encoder.rs: QoiEncoder::encode"]}
{"id": "C03", "title": "QOI decoder implements the QOI specification on every stream", "statement": "For every byte stream following a valid header, the pixels returned by the QOI decoder are those defined by the published QOI chunk semantics (colour cache indexed by (3r+5g+7b+11a) mod 64, wrapping differences, runs), and the output always has exactly width*height*components bytes.", "quantifier": "every byte stream (including hand made streams no encoder emits), every size", "why_tests_cant": "The chunk language has unbounded histories; the decoder hashes with a 64-bit multiply trick instead of the formula in the specification.", "anchors": ["crates/zune-qoi/src/decoder.rs: decode_inner_generic, hash of pixel", "crates/zune-qoi/src/constants.rs"]}
{"id": "C04", "title": "QOI decode into a larger buffer", "statement": "decode_into given a buffer at least as long as the reported output size decodes the image into the first output_size bytes and succeeds whenever decoding into an exactly sized buffer succeeds.", "quantifier": "every valid QOI file and every buffer length >= required length", "why_tests_cant": "Buffers longer than needed are unbounded; tests use exact buffers.", "anchors": ["crates/zune-qoi/src/decoder.rs: QoiDecoder::decode_into"]}
{"id": "C05", "title": "QOI header acceptance", "statement": "A QOI header is accepted exactly when the magic is 'qoif', both dimensions are non zero and within the configured limits, the channel count is 3 or 4 and (in strict mode) the colorspace byte is 0 or 1; an accepted header reports the big-endian dimensions stored in the file.", "quantifier": "every byte stream and every option setting", "why_tests_cant": "All 2^112 header values and all limits.", "anchors": ["crates/zune-qoi/src/decoder.rs: QoiDecoder::decode_headers"]}
{"id": "C06", "title": "Byte stream integers round trip", "statement": "Any sequence of u8/u16/u32/u64 values written in big or little endian through the writer is read back, in order, as the same values by the reader's corresponding getters, with the reader ending exactly at the number of bytes the writer reported.", "quantifier": "every sequence of integer writes of any length", "why_tests_cant": "Unbounded sequences and all integer values.", "anchors": ["crates/zune-core/src/bytestream/reader.rs: get_u16_be, get_u32_le ...", "crates/zune-core/src/bytestream/writer.rs: write_u16_be ..."]}
{"id": "C07", "title": "Failed or peeking reads do not move the reader", "statement": "peek_at never changes the reader position, and a fixed-size read that fails for lack of data leaves the position where it was.", "quantifier": "every buffer, position and request size", "why_tests_cant": "All positions near and beyond the end of data.", "anchors": ["crates/zune-core/src/bytestream/reader.rs: peek_at, read_fixed_bytes_or_error", "crates/zune-core/src/bytestream/reader/no_std_readers.rs: ZCursor"]}
{"id": "C08", "title": "Seek laws", "statement": "Seeking from start, current or end positions the reader at the requested absolute offset or reports an error without moving; a sequence of seeks ends at the position predicted by integer arithmetic.", "quantifier": "every sequence of seeks", "why_tests_cant": "Unbounded histories of signed offsets, including past the end and negative.", "anchors": ["crates/zune-core/src/bytestream/reader/no_std_readers.rs: z_seek, skip, rewind"]}
{"id": "C09", "title": "Farbfeld encode/decode is lossless", "statement": "Encoding any 16-bit RGBA image as farbfeld and calling decode on the result returns the original samples.", "quantifier": "every width, height and sample buffer", "why_tests_cant": "All image sizes; the existing tests do not exercise decode() on a non-empty image.", "anchors": ["crates/zune-farbfeld/src/encoder.rs: FarbFeldEncoder::encode", "crates/zune-farbfeld/src/decoder.rs: FarbFeldDecoder::decode, decode_into, decode_headers"]}
{"id": "C10", "title": "PPM/PAM encode/decode is lossless", "statement": "Encoding any 8- or 16-bit Luma, LumaA, RGB or RGBA image to PPM (P5/P6/P7) and decoding the bytes returns the original samples, dimensions, depth and colorspace.", "quantifier": "every image of every size in the supported formats", "why_tests_cant": "The header is free-form text followed directly by binary samples, so correctness depends on the value of the first samples.", "anchors": ["crates/zune-ppm/src/encoder.rs: PPMEncoder::encode", "crates/zune-ppm/src/decoder.rs: PPMDecoder::decode_headers, decode_into, skip_spaces, get_integer"]}
{"id": "C11", "title": "zlib encode/decode is lossless", "statement": "encode_zlib on any byte string yields a stream that decode_zlib accepts (checksum verification enabled) and decodes to the same byte string.", "quantifier": "every byte string of every length", "why_tests_cant": "The encoder splits the data in 65535-byte stored blocks; correctness over block boundaries and bit-buffer refills for all lengths.", "anchors": ["crates/zune-inflate/src/encoder.rs: DeflateEncoder::encode_zlib, encode_no_compression", "crates/zune-inflate/src/decoder.rs: DeflateDecoder::decode_zlib, start_deflate_block", "crates/zune-inflate/src/bitstream.rs: BitStreamReader"]}
{"id": "C12", "title": "Checksums equal their definitions", "statement": "The table driven CRC-32 used for PNG chunks and gzip equals the bit-by-bit CRC-32 (polynomial 0xEDB88320) on every byte string and from every starting state, and Adler-32 equals (1+sum, sum of prefix sums) modulo 65521.", "quantifier": "every byte string and starting register", "why_tests_cant": "All byte strings and lengths (8-byte slicing plus tail).", "anchors": ["crates/zune-inflate/src/crc.rs: crc32, crc32_slice8", "crates/zune-png/src/crc.rs", "crates/zune-inflate/src/decoder.rs: calc_adler_hash"]}
{"id": "C13", "title": "Inflate Huffman tables decode the canonical code", "statement": "For every complete set of code lengths, the decode tables built by the inflate decoder map the bits of the canonical codeword of any symbol, followed by arbitrary bits, to that symbol and its length.", "quantifier": "every vector of code lengths accepted by the builder and every symbol", "why_tests_cant": "The number of code length vectors is astronomically large (up to 15^288), with two-level tables.", "anchors": ["crates/zune-inflate/src/decoder.rs: build_decode_table, build_decode_table_inner", "crates/zune-inflate/src/utils.rs: make_decode_table_entry"]}
{"id": "C14", "title": "Inflate decodes every valid DEFLATE stream", "statement": "Every stream that is valid according to RFC 1951 is decoded by the inflate decoder to the data the RFC assigns to it.", "quantifier": "every valid DEFLATE stream (any block sequence)", "why_tests_cant": "Streams are unbounded sequences of blocks of three kinds at arbitrary bit offsets.", "anchors": ["crates/zune-inflate/src/decoder.rs: start_deflate_block_inner", "crates/zune-inflate/src/bitstream.rs: refill, get_position"]}
{"id": "C15", "title": "Inflate honours the output limit", "statement": "With a configured output limit, decoding never returns more bytes than the limit.", "quantifier": "every input and limit", "why_tests_cant": "All inputs, all limits.", "anchors": ["crates/zune-inflate/src/decoder.rs: DeflateOptions::set_limit, start_deflate_block_inner"]}
{"id": "C16", "title": "PNG scanline filters are exactly inverted", "statement": "For every filter type, bytes-per-pixel, previous row and row, reconstructing the row filtered according to the PNG specification yields the row again.", "quantifier": "every row length, contents, previous row and bpp", "why_tests_cant": "All byte rows of all lengths; left neighbours depend on previously reconstructed bytes.", "anchors": ["crates/zune-png/src/filters.rs: handle_avg, handle_sub, handle_up, handle_paeth, paeth", "crates/zune-png/src/encoder.rs: filter functions"]}
{"id": "C17", "title": "PNG predictors equal the specification", "statement": "The Paeth predictor used by the decoder selects the neighbour the PNG specification prescribes (with its tie-breaking order) and the Average predictor equals floor((left+above)/2).", "quantifier": "all values of the three neighbours", "why_tests_cant": "The decoder uses reformulated branch-free versions; equality is over 2^24 triples.", "anchors": ["crates/zune-png/src/filters.rs: paeth, handle_avg"]}
{"id": "C18", "title": "PNG encode/decode is lossless", "statement": "Encoding any 8-bit Luma, LumaA, RGB or RGBA image to PNG and decoding it returns the original dimensions, colour type and sample bytes.", "quantifier": "every image size and contents", "why_tests_cant": "Involves chunk splitting, CRCs, zlib block splitting and filters over unbounded data.", "anchors": ["crates/zune-png/src/encoder.rs: PngEncoder::encode", "crates/zune-png/src/decoder.rs: PngDecoder::decode_headers, decode_raw", "crates/zune-inflate/src/decoder.rs"]}
{"id": "C19", "title": "Adam7 passes partition the image", "statement": "For interlaced PNGs of every size, the seven passes write every pixel of the output exactly once.", "quantifier": "every width and height", "why_tests_cant": "All sizes, including those where some passes are empty.", "anchors": ["crates/zune-png/src/decoder.rs: create_png_data interlaced path, XORIG, YORIG, XSPC, YSPC"]}
{"id": "C20", "title": "PNG sub-byte samples and palettes expand per specification", "statement": "1-, 2- and 4-bit samples are unpacked most significant bits first and scaled by 255/(2^n-1) for greyscale, palette indices select the PLTE/tRNS entries, uniformly for every row of the image.", "quantifier": "every packed row, width, bit depth and palette", "why_tests_cant": "All row widths (partial last bytes) and contents.", "anchors": ["crates/zune-png/src/utils.rs: expand_bits_to_byte, expand_palette, expand_trns", "crates/zune-png/src/decoder.rs: extra_transform calls"]}
{"id": "C21", "title": "16-bit PNG colour-key transparency", "statement": "For a 16-bit PNG with a tRNS colour key, decoding with alpha makes exactly the pixels equal to the key fully transparent and all others opaque.", "quantifier": "every row and key value", "why_tests_cant": "All 2^48 keys and rows.", "anchors": ["crates/zune-png/src/utils.rs: expand_trns"]}
{"id": "C22", "title": "Radiance HDR run-length coding is lossless", "statement": "The run-length encoded RGBE scanline written by the HDR encoder is decoded by the HDR decoder to exactly the same RGBE bytes.", "quantifier": "every scanline of width 8..32767 and every contents", "why_tests_cant": "The encoder has interacting run/literal look-ahead states; all byte sequences.", "anchors": ["crates/zune-hdr/src/encoder.rs: rle", "crates/zune-hdr/src/decoder.rs: decode_into scanline loop"]}
{"id": "C23", "title": "Old-style HDR scanlines", "statement": "A flat or old-style run-length coded scanline (pixel (1,1,1,n) repeats the previous pixel n times) is decoded to the RGBE pixels it denotes.", "quantifier": "every scanline width and contents", "why_tests_cant": "Runs at every position and shift.", "anchors": ["crates/zune-hdr/src/decoder.rs: decompress"]}
{"id": "C24", "title": "PSD PackBits decoding", "statement": "For every sequence of PackBits packets whose output exactly fills the image, the PSD decoder's RLE path returns, for each channel plane, the bytes denoted by the packets, interleaved per pixel.", "quantifier": "every packet sequence, size and channel count", "why_tests_cant": "Unbounded packet sequences.", "anchors": ["crates/zune-psd/src/decoder.rs: psd_decode_rle"]}
{"id": "C25", "title": "Uncompressed PSD decoding", "statement": "An uncompressed PSD image of c channels decodes to the planar samples interleaved per pixel, 8 and 16 bit.", "quantifier": "every image size, channel count and contents", "why_tests_cant": "All sizes and contents.", "anchors": ["crates/zune-psd/src/decoder.rs: decode_into raw path"]}
{"id": "C26", "title": "BMP row padding and orientation", "statement": "For every width and height, uncompressed BMP rows are read at the 4-byte aligned stride and flipped so that the output is top-down.", "quantifier": "every size, depth and contents", "why_tests_cant": "All width residues modulo 4 at each depth.", "anchors": ["crates/zune-bmp/src/decoder.rs: decode_into_inner, flip_vertically"]}
{"id": "C27", "title": "BMP bit field scaling", "statement": "A colour channel of n bits (1..8) extracted from a 16/32-bit BMP pixel is scaled to 8 bits by bit replication, mapping 0 to 0 and the maximum to 255 monotonically, with error below one from v*255/(2^n-1).", "quantifier": "every bit count and value", "why_tests_cant": "Full table over all masks and values.", "anchors": ["crates/zune-bmp/src/decoder.rs: shift_signed"]}
{"id": "C28", "title": "Channel storage stays within its allocation", "statement": "After every sequence of push/extend operations on a Channel the stored bytes are the concatenation of the pushed elements, the length never exceeds the allocated size, and every reallocation is done with the layout of the current allocation.", "quantifier": "every sequence of channel operations starting from any capacity", "why_tests_cant": "Histories of growth are unbounded; memory-safety cannot be observed by a passing test.", "anchors": ["crates/zune-image/src/channel.rs: Channel::push, extend, realloc, new_with_capacity_and_type"]}
{"id": "C29", "title": "Interleave/deinterleave are inverse", "statement": "Creating an image from interleaved pixels and flattening it returns the same pixels, and flattening any channels and re-splitting returns the same channels, for any number of components.", "quantifier": "every pixel buffer whose length is a multiple of the component count", "why_tests_cant": "All lengths/components, specialised paths for 1..4 components and a generic one.", "anchors": ["crates/zune-image/src/deinterleave.rs", "crates/zune-image/src/frame.rs: Frame::flatten", "crates/zune-image/src/utils.rs: swizzle_channels"]}
{"id": "C30", "title": "Depth conversion round trips", "statement": "Converting an image 8->16->8 bits, 8->f32->8 bits, or 16->f32->16 bits returns the original samples.", "quantifier": "every sample value", "why_tests_cant": "Floating point rounding over the complete value range.", "anchors": ["crates/zune-image/src/core_filters/depth.rs: depth_u16_to_u8, depth_u8_to_u16, ..."]}
{"id": "C31", "title": "Flip, flop and vertical flip are the stated permutations", "statement": "vertical flip sends row y to row h-1-y, flop sends column x to w-1-x, flip does both; each is an involution, and flip = flop after vertical flip.", "quantifier": "every image size (odd or even) and contents", "why_tests_cant": "In-place split/swap loops over all sizes.", "anchors": ["crates/zune-imageprocs/src/flip.rs: flip, flop, vertical_flip"]}
{"id": "C32", "title": "Rotations are geometric rotations", "statement": "rotate 90/180/270 moves pixel (x,y) to the position given by clockwise rotation; four quarter turns are the identity and 90 then 270 is the identity; the operation works for every bit depth.", "quantifier": "every image size, depth and contents", "why_tests_cant": "All sizes, odd and even.", "anchors": ["crates/zune-imageprocs/src/rotate.rs: rotate_90, rotate_180, rotate_270, Rotate::execute_impl"]}
{"id": "C33", "title": "Transpose", "statement": "Transposing moves the pixel (x,y) to (y,x) and transposing twice is the identity.", "quantifier": "every image size and contents", "why_tests_cant": "Blocked implementation with edge handling for all residues mod 8.", "anchors": ["crates/zune-imageprocs/src/transpose/scalar.rs: transpose_scalar"]}
{"id": "C34", "title": "Crop returns the requested window", "statement": "Cropping returns exactly the pixels of the requested window when it lies inside the image.", "quantifier": "every image size and window", "why_tests_cant": "All sizes and offsets.", "anchors": ["crates/zune-imageprocs/src/crop.rs: crop"]}
{"id": "C35", "title": "Invert is an involution and leaves alpha alone", "statement": "Inverting twice gives back the image; a single invert maps x to max-x on colour channels and leaves the alpha channel unchanged.", "quantifier": "every image, 8 and 16 bit, every colorspace with or without alpha", "why_tests_cant": "All images and colorspaces.", "anchors": ["crates/zune-imageprocs/src/invert.rs", "crates/zune-image/src/frame.rs: separate_color_and_alpha_mut"]}
{"id": "C36", "title": "Threshold modes follow their documented formulas", "statement": "Each threshold mode maps every pixel as documented (binary, binary inverse, truncate, to-zero).", "quantifier": "every pixel, threshold value and mode", "why_tests_cant": "All pairs for 8 and 16 bit.", "anchors": ["crates/zune-imageprocs/src/threshold.rs: threshold"]}
{"id": "C37", "title": "Premultiplied alpha arithmetic", "statement": "premultiply computes round(color*alpha/max) and unpremultiply of a premultiplied opaque pixel is the identity.", "quantifier": "every colour and alpha value (8 and 16 bit)", "why_tests_cant": "All 2^32 pairs at 16 bits.", "anchors": ["crates/zune-imageprocs/src/premul_alpha.rs: premultiply_u8, premultiply_u16"]}
{"id": "C38", "title": "Fast division by invariant integers is exact", "statement": "The precomputed-reciprocal division used to un-premultiply alpha equals integer division for all 32-bit dividends and divisors.", "quantifier": "every dividend < 2^32 and divisor 1..2^32-1", "why_tests_cant": "2^64 pairs.", "anchors": ["crates/zune-imageprocs/src/mathops.rs: compute_mod_u32, fastdiv_u32"]}
{"id": "C39", "title": "Colour/alpha separation", "statement": "Separating the channels of an image with alpha returns the alpha channel identified by the colorspace and the remaining colour channels.", "quantifier": "every colorspace with alpha and every channel list", "why_tests_cant": "All colorspaces and channels; used by every filter that ignores alpha.", "anchors": ["crates/zune-image/src/frame.rs: separate_color_and_alpha_ref, separate_color_and_alpha_mut", "crates/zune-core/src/colorspace.rs: alpha_position"]}
{"id": "C40", "title": "Pipelines run every operation exactly once on every image", "statement": "Advancing a pipeline to the end with at least one image or a decoder runs every queued operation once, in order, on every image and finishes.", "quantifier": "every number of images, operations and call sequences of advance", "why_tests_cant": "Unbounded histories of calls.", "anchors": ["crates/zune-image/src/pipelines.rs: Pipeline::advance, advance_to_end"]}
{"id": "C41", "title": "Per-channel parallel execution equals sequential execution", "statement": "Running a per-channel filter on one thread per channel gives the same image as running it sequentially, for every interleaving of the threads.", "quantifier": "every number of channels, every channel function and every schedule", "why_tests_cant": "Schedules are nondeterministic and unbounded.", "anchors": ["crates/zune-imageprocs/src/utils.rs: execute_on"]}
{"id": "C42", "title": "JPEG Huffman decoding follows the canonical code", "statement": "For every Huffman table accepted by the JPEG decoder, decoding a bit stream that starts with the canonical codeword of a symbol (of any length up to 16) yields that symbol and consumes exactly its length.", "quantifier": "every table (bit-length counts and symbol values), every symbol, every following bits", "why_tests_cant": "All table shapes; short codes use a lookahead table, long ones a max-code search.", "anchors": ["crates/zune-jpeg/src/huffman.rs: HuffmanTable::make_derived_table", "crates/zune-jpeg/src/bitstream.rs: decode_huff!"]}
{"id": "C43", "title": "JPEG fast AC path equals the slow path", "statement": "The combined run/value lookup used for short AC codes produces the same coefficient, run and bit consumption as decoding the symbol and its extra bits separately.", "quantifier": "every table and every 9-bit lookahead", "why_tests_cant": "All tables.", "anchors": ["crates/zune-jpeg/src/huffman.rs: fast AC table", "crates/zune-jpeg/src/bitstream.rs: decode_mcu_block"]}
{"id": "C44", "title": "JPEG receive-extend", "statement": "The branch-free sign extension of s extra bits equals the EXTEND procedure of the JPEG standard.", "quantifier": "every s in 1..16 and every value below 2^s", "why_tests_cant": "Bit trick over all values.", "anchors": ["crates/zune-jpeg/src/bitstream.rs: huff_extend"]}
{"id": "C45", "title": "JPEG IDCT shortcuts equal the full transform", "statement": "The DC-only and the 4x4 shortcut inverse transforms give exactly the same samples as the full 8x8 inverse transform on blocks where they are selected.", "quantifier": "every coefficient block selected for a shortcut", "why_tests_cant": "All 16 coefficient values in 32-bit range.", "anchors": ["crates/zune-jpeg/src/idct/scalar.rs: idct_int, idct4x4, idct_int_1x1", "crates/zune-jpeg/src/mcu.rs: selection by len"]}
{"id": "C46", "title": "JPEG colour conversion range and grey", "statement": "YCbCr to RGB conversion keeps neutral chroma grey exactly, always lands in 0..255 and is within one unit of the exact real formula.", "quantifier": "every Y, Cb, Cr triple", "why_tests_cant": "2^24 triples, fixed-point arithmetic with truncation.", "anchors": ["crates/zune-jpeg/src/color_convert/scalar.rs: ycbcr_to_rgb_inner_16_scalar"]}
{"id": "C47", "title": "JPEG chroma upsampling is an interpolation", "statement": "Horizontal and vertical upsampling produces samples between the minimum and maximum of the contributing inputs, so constant rows stay constant and no overflow occurs.", "quantifier": "every row width and contents", "why_tests_cant": "All row lengths and contents.", "anchors": ["crates/zune-jpeg/src/upsampler/scalar.rs: upsample_horizontal, upsample_vertical"]}
{"id": "C48", "title": "JPEG entropy data unstuffing", "statement": "The bit reader delivers the entropy coded bytes with each stuffed FF 00 pair replaced by FF and stops at the first marker; the word-at-a-time check for FF bytes is exact.", "quantifier": "every byte sequence", "why_tests_cant": "All byte sequences and alignments of FF within 4-byte words.", "anchors": ["crates/zune-jpeg/src/bitstream.rs: refill, has_byte, has_zero"]}
{"id": "C49", "title": "JPEG zig-zag order is a permutation of the block and keeps short blocks in the corner", "statement": "Each coefficient index 0..63 is written to a distinct block position and the first 10 lie within the upper-left 4x4 corner, whatever the stream.", "quantifier": "every coefficient index and block length", "why_tests_cant": "Table property used by the IDCT selection for all streams.", "anchors": ["crates/zune-jpeg/src/misc.rs: UN_ZIGZAG", "crates/zune-jpeg/src/mcu.rs"]}
{"id": "C50", "title": "JPEG XL reversible colour transform", "statement": "The YCoCg transform used by the JPEG XL encoder is invertible: red, green and blue are recovered exactly from its output, for 8 and 16 bit samples without overflow.", "quantifier": "every RGB triple", "why_tests_cant": "2^48 triples for 16 bit.", "anchors": ["crates/zune-jpegxl/src/color_convert.rs: convert_rgb_to_ycocg"]}
{"id": "C51", "title": "JPEG XL bit writer concatenates", "statement": "The bytes produced by any sequence of put_bits calls (followed by padding) are the LSB-first concatenation of the requested bit fields.", "quantifier": "every sequence of (nbits,bits)", "why_tests_cant": "Unbounded sequences with flushes at every alignment.", "anchors": ["crates/zune-jpegxl/src/bit_writer.rs: BitWriter::put_bits, flush, zero_pad"]}
{"id": "C52", "title": "JPEG XL hybrid integer tokens are invertible", "statement": "The (token, extra bit count, extra bits) produced for any 32-bit value determine the value, and the extra bits fit in the announced count.", "quantifier": "every 32-bit value", "why_tests_cant": "2^32 values, two encodings.", "anchors": ["crates/zune-jpegxl/src/bit_writer.rs: encode_hybrid_unit_000, encode_hybrid_uint_lz77"]}
{"id": "C53", "title": "Format detection is prefix based and side-effect free", "statement": "Guessing the format of a stream returns a format whose magic bytes are a prefix of the data and leaves the stream at its start; the result does not depend on bytes after the longest magic.", "quantifier": "every byte stream", "why_tests_cant": "All streams, including ones shorter than the magics.", "anchors": ["crates/zune-image/src/codecs.rs: guess_format"]}
{"id": "C54", "title": "Encoding to a result returns the encoded bytes", "statement": "encode_to_result returns the bytes the encoder wrote.", "quantifier": "every image and encoder", "why_tests_cant": "All images/encoders.", "anchors": ["crates/zune-image/src/traits.rs: EncoderTrait::encode_to_result"]}
{"id": "C55", "title": "BMP RLE8 decoding draws the commands", "statement": "Decoding an RLE8 BMP file gives the picture drawn by its commands (runs, absolute pixels, end of line, delta moves, end of bitmap), top row first.", "quantifier": "every command sequence that stays inside the bitmap, every size and palette", "why_tests_cant": "Unbounded command sequences with every alignment of padding and cursor position.", "anchors": ["crates/zune-bmp/src/decoder.rs: decode_rle, expand_palette"]}
{"id": "C56", "title": "BMP RLE4 decoding draws the commands", "statement": "Decoding an RLE4 BMP file gives the picture drawn by its commands, runs alternating between the two nibbles, top row first.", "quantifier": "every command sequence that stays inside the bitmap, every size and palette", "why_tests_cant": "Unbounded command sequences with every parity of pixel and byte counts.", "anchors": ["crates/zune-bmp/src/decoder.rs: decode_rle, expand_palette"]}
{"id": "C57", "title": "PFM rows are returned top to bottom", "statement": "Decoding a PFM file returns the samples with the rows from the top of the image to the bottom (the file stores them bottom to top), in the byte order given by the sign of the scale.", "quantifier": "every size, one or three components, every sample bit pattern, both byte orders", "why_tests_cant": "All sizes including every odd height; the tests use fixed files.", "anchors": ["crates/zune-ppm/src/decoder.rs: decode_pf_header, decode"]}
{"id": "C58", "title": "gzip members decode to their content", "statement": "decode_gzip on a member with any combination of the optional header fields of RFC 1952 (extra field, file name, comment, header CRC, text flag), any content, and the right CRC-32 and length in the footer returns the content; a wrong checksum or length is reported as an error.", "quantifier": "every header, every content, every footer, any bytes after the member", "why_tests_cant": "Five independent optional fields of arbitrary length in front of an unbounded body.", "anchors": ["crates/zune-inflate/src/decoder.rs: decode_gzip", "crates/zune-inflate/src/gzip_constants.rs"]}
{"id": "C59", "title": "PNG chunk framing", "statement": "A PNG file consisting of the signature, IHDR, well-formed chunks and IEND is accepted whatever follows IEND; PLTE, tRNS, gAMA, eXIf and IDAT chunks have exactly their specified effect, unknown ancillary chunks have none, and the division of the compressed data into IDAT chunks does not matter.", "quantifier": "every list of well-formed chunks, every chunk contents, every trailing data", "why_tests_cant": "Unboundedly many chunks of arbitrary sizes in arbitrary order.", "anchors": ["crates/zune-png/src/decoder.rs: read_chunk_header, decode_headers, parse_header", "crates/zune-png/src/headers/readers.rs", "crates/zune-png/src/options.rs: default_chunk_handler"]}
{"id": "C60", "title": "PNG checksum verification", "statement": "With CRC confirmation enabled, a PNG file in which any chunk carries a CRC different from that of its name and data is rejected with a CRC error.", "quantifier": "every prefix of well-formed chunks, every chunk name, contents and wrong CRC value", "why_tests_cant": "2^32 wrong CRC values for every one of unboundedly many chunk contents and positions.", "anchors": ["crates/zune-png/src/decoder.rs: read_chunk_header", "crates/zune-png/src/crc.rs: calc_crc"]}
{"id": "C61", "title": "PNG 16-bit output formats", "statement": "The samples of a 16-bit PNG appear in the byte order asked for; with the option to strip to 8 bits every sample is replaced by its more significant byte.", "quantifier": "every 16-bit picture, colour type, interlacing and option setting", "why_tests_cant": "All sizes and sample values for every combination of options.", "anchors": ["crates/zune-png/src/decoder.rs: decode_raw, decode_into_inner", "crates/zune-png/src/utils.rs: convert_be_to_ne_scalar"]}
{"id": "C62", "title": "Channels are typed element lists", "statement": "A channel filled by any sequence of pushes and extends with whole elements of its type reads back as exactly these elements; two channels compare equal exactly when type and bytes agree, whatever their capacities; a clone compares equal to the original; from_elm(n, e) holds n copies of e.", "quantifier": "every sequence of operations, every pair of channels, every element type and size", "why_tests_cant": "All histories and capacities; the code works on raw memory with unsafe casts.", "anchors": ["crates/zune-image/src/channel.rs: reinterpret_as, PartialEq, Clone, from_elm"]}
{"id": "C63", "title": "Colour layout conversion keeps the picture", "statement": "Converting an image between the layouts RGB, RGBA, BGR, BGRA, ARGB, Luma and LumaA succeeds for every well formed image and keeps the red, green and blue planes of every frame; alpha is kept, made opaque or dropped as the target requires. An 8 bit CMYK image becomes c*k/255 correctly rounded.", "quantifier": "every well formed image of any dimensions, depth and number of frames, every pair of layouts", "why_tests_cant": "All planes, dimensions, frame counts and pairs of colour spaces, including the two step conversions through RGB and RGBA.", "anchors": ["crates/zune-image/src/core_filters/colorspace.rs: ColorspaceConv::execute_impl", "crates/zune-image/src/core_filters/colorspace/conversion_functions.rs", "crates/zune-image/src/core_filters/colorspace/rgb_to_cmyk.rs: cmyk_to_rgb_u8"]}
{"id": "C64", "title": "Conversion to grey is the weighted mean of each pixel, on every CPU", "statement": "Converting to Luma or LumaA gives, for every pixel, the weighted mean 0.2989 r + 0.587 g + 0.114 b (integer part, up to the rounding of the fixed point weights), independent of the instruction set used; a grey pixel stays as it is; alpha is kept or opaque.", "quantifier": "every 8 or 16 bit image, every pixel, every instruction set", "why_tests_cant": "2^24 colours per pixel (2^48 for 16 bits), and every image size for the SIMD remainder handling.", "anchors": ["crates/zune-image/src/core_filters/colorspace/grayscale.rs", "crates/zune-image/src/core_filters/colorspace/grayscale/scalar.rs", "crates/zune-image/src/core_filters/colorspace/grayscale/sse41.rs", "crates/zune-image/src/core_filters/colorspace/grayscale/avx2.rs", "crates/zune-image/src/core_filters/colorspace/conversion_functions.rs: convert_rgb_to_grayscale"]}
{"id": "C65", "title": "Operations never hand on a malformed image", "statement": "An operation that reports success through execute leaves an image whose frames each have the number of channels of its colour space and whose channels all have the size given by depth, width and height.", "quantifier": "every operation, every image before and after it", "why_tests_cant": "The operation is arbitrary code; tests can only run the operations that exist.", "anchors": ["crates/zune-image/src/traits.rs: execute, confirm_invariants"]}
{"id": "C66", "title": "JPEG colour conversion works pixel by pixel", "statement": "For every supported pair of coded and output colour space, with and without AVX2, converting a line makes each output pixel from the samples at the same position only, in the byte order of the output colour space with opaque alpha where there is one, writes the whole line, and leaves out the padding of the planes; any other pair is refused with an error.", "quantifier": "every pair of colour spaces, every line width and padding, every sample value", "why_tests_cant": "Widths interact with the 16-sample kernels and their overlapping tails, and there are many pairs of colour spaces.", "anchors": ["crates/zune-jpeg/src/worker.rs: color_convert", "crates/zune-jpeg/src/color_convert/scalar.rs", "crates/zune-jpeg/src/color_convert/avx.rs"]}
{"id": "C67", "title": "The boundaries of MCU rows leave no trace in a decoded JPEG", "statement": "Post processing the samples of a baseline frame one MCU row after the other, with the rows kept between them, writes exactly the picture whose pixels are the colour conversion of the components upsampled as a whole: every line once, in order, the first height lines, without padding, and without panic or missing samples.", "quantifier": "every width, height, sample contents, every supported combination of sampling factors and colour spaces, with and without AVX2", "why_tests_cant": "The state kept between MCU rows (row, row_up, first_row_upsample_dest, upsample_dest) interacts with the number of rows, the ratios and the height; tests see a few sizes and 4:2:0.", "anchors": ["crates/zune-jpeg/src/mcu.rs: post_process", "crates/zune-jpeg/src/worker.rs: upsample", "crates/zune-jpeg/src/misc.rs: setup_component_params, calculate_padded_width", "crates/zune-jpeg/src/decoder.rs: set_upsampling"]}
{"id": "C68", "title": "JPEG baseline blocks round-trip", "statement": "Coefficients encoded as the JPEG standard prescribes (DC differences, runs of zeros, categories with extra bits, canonical codes of any accepted tables), packed into stuffed bytes with any padding and ended by a marker, are decoded by decode_mcu_block to the same coefficients times the quantisation table, at their zig-zag places; skipping a block with discard_mcu_block consumes the same bits.", "quantifier": "every Huffman and quantisation table, every sequence of blocks of every number of components, every coefficient below 2^15 in magnitude, every padding and fill bytes", "why_tests_cant": "the combinations of code lengths, runs, values, stuffed bytes and buffer fill levels at which codes cross refills are unbounded; the fast path is only taken for short codes", "anchors": ["crates/zune-jpeg/src/bitstream.rs:300-485", "crates/zune-jpeg/src/huffman.rs:40-254"]}
{"id": "C69", "title": "JPEG progressive scans restore the coefficients", "statement": "For every sequence of scans that ITU T.81 annex G allows (DC or a band of AC coefficients, first scan at some bit position and then refinements bit by bit, bands and bits mixed in any order, DC scans interleaved or not), encoded with any Huffman tables the decoder accepts, including end-of-band runs over any number of blocks and correction bits within and after runs, decoding from a zeroed frame succeeds. Each coefficient sent down to bit 0 then has its exact value at its place in the block; one sent down to bit al has the value of the bits sent; one not sent is zero.", "quantifier": "all coefficients below 2^15, all scan scripts, all tables, all block orders, all paddings and markers behind the scans", "why_tests_cant": "The value of a coefficient depends on every scan that touched it, and on end-of-band runs over blocks before it; a test image has one script and few of the run lengths.", "anchors": ["crates/zune-jpeg/src/bitstream.rs:519-759", "crates/zune-jpeg/src/mcu_prog.rs:134-186", "crates/zune-jpeg/src/mcu_prog.rs:221-444"]}
{"id": "C70", "title": "JPEG progressive scans visit the right blocks", "statement": "A scan of one component visits ceil(ceil(X*H/Hmax)/8) by ceil(ceil(Y*V/Vmax)/8) blocks row by row (T.81 A.1.1, A.2.2), an interleaved scan every block of each of its components exactly once; no scan visits a block twice.", "quantifier": "all image sizes, sampling factors, numbers of components", "why_tests_cant": "Most images have chroma factors 1x1, where the numbers agree; the others need odd factor combinations.", "anchors": ["crates/zune-jpeg/src/mcu_prog.rs:246-275", "crates/zune-jpeg/src/mcu_prog.rs:390-416"]}
{"id": "C71", "title": "JPEG XL prediction residuals determine the samples", "statement": "For every channel of the encoder the residuals and zero runs handed to the entropy coder expand to one residual per sample in raster order, and the only picture whose gradient-predicted residuals (with the edge rules of the standard) are these is the one encoded. Residuals stay within four times (two times for unsigned channels) the largest sample, and runs are empty or at least eight long.", "quantifier": "all channels of 8-bit and 16-bit pictures after the colour transform, all widths and heights, all sample values", "why_tests_cant": "Chunks of eight, runs continued across chunks and rows, and the edge rules interact; a test samples a few pictures, the property quantifies over all.", "anchors": ["crates/zune-jpegxl/src/encoder.rs:148", "crates/zune-jpegxl/src/encoder.rs:616-708", "crates/zune-jpegxl/src/encoder.rs:749-894"]}
{"id": "C72", "title": "JPEG XL prefix codes are complete, within limits and optimal", "statement": "compute_code_lengths returns lengths within the limits of every symbol, fills the code space exactly and is optimal among all such lengths; PrefixCode::new succeeds for all symbol counts the encoder can produce, gives a code word of at most 15 bits to exactly the symbols counted, and stores the canonical code words in the bit order of the stream.", "quantifier": "all counts (any frequencies) for the symbol sets the encoder uses", "why_tests_cant": "The dynamic programme runs over all partial sums of the code space; optimality and completeness are statements about all alternatives and all frequency tables.", "anchors": ["crates/zune-jpegxl/src/encoder.rs:28-251", "crates/zune-jpegxl/src/encoder.rs:1151-1174"]}
{"id": "C73", "title": "JPEG XL entropy coded channels decode to their residuals", "statement": "A decoder of the format that reads the bits written for a channel with the announced prefix code gets exactly the residuals of the channel (and so, with the prediction, its samples), including runs of every length.", "quantifier": "all pictures, all groups up to 256 by 256, all codes built from counts the encoder can produce", "why_tests_cant": "Run codes join three fields in one 32-bit word; whether they fit depends on code lengths chosen from the statistics of the picture.", "anchors": ["crates/zune-jpegxl/src/encoder.rs:540-614", "crates/zune-jpegxl/src/encoder.rs:559-582", "crates/zune-jpegxl/src/encoder.rs:932-963"]}
{"id": "C74", "title": "The description of a JPEG XL prefix code is read back as that code", "statement": "For all symbol counts the encoder can produce, `PrefixCode::write_to` succeeds, and the bits it writes describe, by the rules of RFC 7932 section 3.5 for complex prefix codes (code length code in the fixed order, repeat codes 16 and 17, termination once the code is complete), a code over 257 symbols with exactly the code lengths of the code built for the channel; no other reading of these bits is possible and the bits that follow are left untouched.", "quantifier": "all symbol counts with the shape the encoder gives them, all bits that may follow", "why_tests_cant": "The set of counts is unbounded, and a description that is off by one run token only fails in a foreign decoder and for particular histograms.", "anchors": ["crates/zune-jpegxl/src/encoder.rs:253-334", "crates/zune-jpegxl/src/encoder.rs:152-252"]}
{"id": "C75", "title": "The JPEG XL encoder does not panic", "statement": "For every picture of a supported colour space (grey, grey with alpha, RGB, RGBA; 8 or 16 bits) with sides from 2 to 2^30-1 and data of the right length, `JxlSimpleEncoder::encode` returns a stream instead of panicking: the room reserved in the bit writers is never exceeded, no table is indexed out of range and no length does not fit its field.", "quantifier": "all widths, heights, colour spaces, efforts and pixel data", "why_tests_cant": "The room reserved for a writer is only exceeded by pictures whose residuals are nearly all of the largest kind; random or natural pictures never are.", "anchors": ["crates/zune-jpegxl/src/encoder.rs:1058-1310", "crates/zune-jpegxl/src/encoder.rs:896-1019", "crates/zune-jpegxl/src/bit_depth.rs:150-211"]}
{"id": "C76", "title": "The JPEG XL encoder writes valid headers", "statement": "Whatever `encode` returns is, read by the rules of ISO/IEC 18181-1, a codestream whose image header states the width, height, depth, colour space and alpha channel of the input, whose frame header has no features but one modular frame of groups of 256, whose table of contents lists exactly the sections that a picture of this size has, these sections making up the rest of the file; and the first section starts with a tree, a code for the tree and five codes for the data by which each channel is read with a code of its own and the gradient predictor, and asks for the inverse colour transform just in case there are three colours.", "quantifier": "all pictures for which the encoder returns a stream", "why_tests_cant": "Variable-length fields depend on the size in the header and on the length of each section in the table of contents; only some sizes are ever tested, and with the reference decoder.", "anchors": ["crates/zune-jpegxl/src/encoder.rs:1448-1595", "crates/zune-jpegxl/src/encoder.rs:896-972", "crates/zune-jpegxl/src/encoder.rs:1373-1446"]}
{"id": "C77", "title": "The JPEG XL encoder is lossless", "statement": "Whatever `encode` returns is a codestream of ISO/IEC 18181-1 from which exactly the samples of the input are read: the sections are split as listed, the codes are read, each channel of each group is decoded with its code, run lengths are expanded, the gradient prediction and the colour transform are undone, and the result at every pixel is the input; no other result is possible.", "quantifier": "all pictures for which the encoder returns a stream", "why_tests_cant": "The claim relates an encoder to every conforming decoder and every picture; a test decodes a few pictures with one decoder.", "anchors": ["crates/zune-jpegxl/src/encoder.rs:1058-1446", "crates/zune-jpegxl/src/encoder.rs:600-895", "crates/zune-jpegxl/src/color_convert.rs:1-180"]}
{"id": "C78", "title": "Padding and neighbourhood statistics are exact", "statement": "`pad` with `Replicate` gives the picture continued beyond its border by the nearest border samples (corners included) and with `Constant` the picture surrounded by the default value; and the filters Maximum, Minimum, Gradient, Mean and Contrast of `SpatialOps` store in every sample that statistic of the (2r+1)x(2r+1) samples around it in the continued picture, without a panic.", "quantifier": "all widths, heights, radii, depths of 8 and 16 bits and sample values", "why_tests_cant": "Border and corner samples at every radius and every aspect ratio, and sums that come near the 32-bit limit, are not reached by a few test pictures.", "anchors": ["crates/zune-imageprocs/src/pad.rs:87-171", "crates/zune-imageprocs/src/spatial.rs:42-148", "crates/zune-imageprocs/src/spatial_ops.rs:48-188"]}
{"id": "C79", "title": "The median filter computes the median", "statement": "For every radius r, `Median` replaces every sample by the median of the (2r+1)x(2r+1) samples around it (the picture continued by its border); the histogram that is carried from one window to the next is at every position the histogram of the window.", "quantifier": "all widths, heights, radii, depths of 8 and 16 bits and sample values", "why_tests_cant": "The result depends on an invariant of a running histogram across a whole row; pictures with many equal samples hide an error in the rank.", "anchors": ["crates/zune-imageprocs/src/median.rs:73-283", "crates/zune-imageprocs/src/median.rs:285-327"]}
{"id": "C80", "title": "The box blur computes means of centred windows", "statement": "For every radius r of at least two, bumped to the next odd number, `BoxBlur` replaces every sample of each row by the mean of the 2r+1 samples centred at it (the row continued by its end samples, the window limited to the width) and then does the same with the columns; a picture of one colour is not changed; nothing of the scratch space remains.", "quantifier": "all widths, heights, radii, depths of 8 and 16 bits and sample values", "why_tests_cant": "A window displaced by one sample or a wrong right border is not visible in a blurred picture, and the tests of the project only check that nothing panics.", "anchors": ["crates/zune-imageprocs/src/box_blur.rs:138-171", "crates/zune-imageprocs/src/box_blur.rs:191-297"]}
{"id": "C81", "title": "Mirror keeps the documented half", "statement": "`mirror` keeps the half named by the mode and puts its mirror image in the other half: North keeps the upper rows, South the lower rows, East gives `a b c b a` and West `e d c d e` for a row `a b c d e`; a middle row or column is kept.", "quantifier": "all widths, heights and samples", "why_tests_cant": "Only the exact position of every sample of even and odd sizes shows whether the right half was kept.", "anchors": ["crates/zune-imageprocs/src/mirror.rs:20-57", "crates/zune-imageprocs/src/mirror.rs:123-170"]}
{"id": "C82", "title": "Contrast stretching is linear", "statement": "`stretch_contrast` sends samples at or below `lower` to zero, samples at or above `upper` to the maximum, maps the samples between linearly (rounded), keeps the order of samples and returns an error exactly if upper < lower.", "quantifier": "all samples, bounds and depths of 8 and 16 bits", "why_tests_cant": "The multiplication by a reciprocal and the rounding must be right for every pair of bounds and every sample (2^48 cases at 16 bits).", "anchors": ["crates/zune-imageprocs/src/stretch_contrast.rs:84-134"]}
{"id": "C83", "title": "DQT segments are read as T.81 says", "statement": "`parse_dqt` accepts a segment exactly if it is a list of quantisation tables as in T.81, B.2.4.1 (8 or 16 bit elements, destinations 0 to 3, exact length); each destination then holds the last table given for it with its k-th element at the k-th place of the zig-zag walk, other destinations are unchanged, and the stream is just after the segment.", "quantifier": "all decoder states and all byte strings", "why_tests_cant": "A test file has one or two tables; lengths off by one, tables of mixed precision in one segment and repeated destinations do not occur in it.", "anchors": ["crates/zune-jpeg/src/headers.rs:115-176", "crates/zune-jpeg/src/headers.rs:631-643"]}
{"id": "C84", "title": "DHT segments are read as T.81 says", "statement": "`parse_huffman` accepts a segment exactly if it is a list of Huffman tables as in T.81, B.2.4.2 and Annex C (destinations 0 to 3, counts that form a code without the all-ones word, at most 256 symbols, DC symbols at most 15, exact length); every destination then holds a table that decodes exactly the code of the last table given for it, other tables are unchanged.", "quantifier": "all decoder states and all byte strings", "why_tests_cant": "The set of legal count vectors is far too large to enumerate, and files use a handful of them.", "anchors": ["crates/zune-jpeg/src/headers.rs:29-111", "crates/zune-jpeg/src/huffman.rs:89-253"]}
{"id": "C85", "title": "Frame headers are read as T.81 says", "statement": "`parse_start_of_frame` accepts a segment exactly if it is a frame header as in T.81, B.2.2, with 8 bit samples and within the limits of the options, and no frame came before; width, height and the components in order, with names, sampling factors and quantisation tables, are then those of the header.", "quantifier": "all decoder states, options and byte strings", "why_tests_cant": "Corrupt lengths, counts and factors come in combinations that no set of files covers.", "anchors": ["crates/zune-jpeg/src/headers.rs:180-281", "crates/zune-jpeg/src/components.rs:85-182"]}
{"id": "C86", "title": "Scan headers are read as T.81 says", "statement": "`parse_sos` accepts a segment exactly if it is a scan header as in T.81, B.2.3, naming one to four distinct components of the frame; these components then have the Huffman tables it names, the others keep theirs, `z_order` starts with the positions of the components in the frame in the order of the scan, and spectral selection and approximation are those of the header.", "quantifier": "all decoder states with distinct component names and all byte strings", "why_tests_cant": "Scans that list components out of order or twice occur only in crafted files.", "anchors": ["crates/zune-jpeg/src/headers.rs:284-426"]}
{"id": "C87", "title": "Every well-formed sequence of marker segments is read as meant", "statement": "From SOI to the first scan header, with any legal sequence of DQT, DHT, SOF0-2, DRI, APPn and COM segments, fill bytes before markers and (outside of strict mode) stray bytes between segments, `decode_headers` succeeds; the decoder then holds for every destination the last table given, the last restart interval, the frame, the scan, the last Exif, XMP, IPTC and MPF data and all ICC pieces and gain maps in order; and nothing after the scan header is consumed.", "quantifier": "all such files and options", "why_tests_cant": "The number of orders and contents of segments is unbounded; the tests contain a few dozen files.", "anchors": ["crates/zune-jpeg/src/decoder.rs:355-605", "crates/zune-jpeg/src/headers.rs:429-627"]}
{"id": "C88", "title": "The colour space follows the Adobe and JFIF conventions", "statement": "The colour space in which a file is decoded is grey for one component, for three components RGB if the Adobe transform is 0 or (without an Adobe segment) the components are named R, G, B and YCbCr otherwise, for four components YCCK if the Adobe transform is 2 and CMYK otherwise, wherever the Adobe segment stands.", "quantifier": "all well-formed headers and options", "why_tests_cant": "The colour space results from three places of the code that each see a part of the header; files with an unusual order of segments are rare.", "anchors": ["crates/zune-jpeg/src/headers.rs:245-257", "crates/zune-jpeg/src/headers.rs:457-503", "crates/zune-jpeg/src/decoder.rs:457-465", "crates/zune-jpeg/src/misc.rs:209-211", "crates/zune-jpeg/src/misc.rs:299-343"]}
{"id": "C89", "title": "ICC profiles in pieces are put together in order or refused", "statement": "`icc_profile` returns a profile exactly if the APP2 pieces are, in some order, the pieces of one profile numbered from 1 with the right count in each, at most 255 as ICC.1 allows; and it returns their concatenation by number.", "quantifier": "all lists of pieces", "why_tests_cant": "All orders of up to 255 pieces cannot be tried.", "anchors": ["crates/zune-jpeg/src/decoder.rs:607-661", "crates/zune-jpeg/src/headers.rs:547-627"]}
{"id": "C90", "title": "Reading headers never panics and always ends", "statement": "For every byte string and all options, `decode_headers` returns a header or an error of the decoder: no index is out of bounds in any segment (Huffman tables included), no loop runs for ever, and on success `info.components` is the length of `components`.", "quantifier": "all byte strings and options", "why_tests_cant": "This is a statement about all inputs, malformed ones included; fuzzing samples them.", "anchors": ["crates/zune-jpeg/src/decoder.rs:355-605", "crates/zune-jpeg/src/headers.rs:29-643", "crates/zune-jpeg/src/huffman.rs:89-253"]}
{"id": "C91", "title": "Sequential JPEG files are decoded as T.81 says", "statement": "For every sequential JPEG file (T.81, B.2, F.1.2) with all components in one scan, any order of its segments, any restart interval and any Huffman and quantisation tables, the decoder returns exactly the picture the file codes: every block decoded with the tables in force, dequantised, inverse transformed, placed, upsampled, colour converted and cut to the size in the frame header; the stream is left just behind EOI. The same holds for files with several scans.", "quantifier": "all files, all pictures, all output colour spaces, both processor variants", "why_tests_cant": "A test decodes a few pictures by one encoder; restart intervals, partial MCUs at the right and lower edge, fill bytes before markers, repeated tables and the places where the bit reader meets a marker combine without bound.", "anchors": ["crates/zune-jpeg/src/mcu.rs:88-312", "crates/zune-jpeg/src/mcu.rs:326-744", "crates/zune-jpeg/src/mcu_prog.rs:442-482", "crates/zune-jpeg/src/mcu_prog.rs:633-685", "crates/zune-jpeg/src/misc.rs:195-345", "crates/zune-jpeg/src/decoder.rs:440-610"]}
{"id": "C92", "title": "Grey output of JPEG files is the first component", "statement": "For every grey or YCbCr sequential JPEG file, decoding to grey returns exactly the samples of the first component, whatever the sampling factors of the other components, whose blocks are skipped without being transformed.", "quantifier": "all such files, both processor variants", "why_tests_cant": "Skipped blocks leave no trace in the output: an error in skipping shows only if it displaces a later block, which depends on every bit in between.", "anchors": ["crates/zune-jpeg/src/mcu.rs:393-576", "crates/zune-jpeg/src/bitstream.rs:436-510", "crates/zune-jpeg/src/misc.rs:195-345"]}
{"id": "C93", "title": "The baseline JPEG decoder ends without panic on arbitrary bytes", "statement": "For every sequence of bytes, every option and every output colour space, the baseline decoder comes to an end; it never indexes outside an array or a slice, never unwraps a missing value: it returns pixels or an error.", "quantifier": "all byte sequences, all options, both processor variants", "why_tests_cant": "Fuzzing reaches finitely many inputs; headers, tables, restart markers and further scans interact through state kept between scans, so the bad combinations are rare and deep.", "anchors": ["crates/zune-jpeg/src/decoder.rs:440-610", "crates/zune-jpeg/src/mcu.rs:88-312", "crates/zune-jpeg/src/mcu.rs:326-744", "crates/zune-jpeg/src/mcu_prog.rs:442-482", "crates/zune-jpeg/src/mcu_prog.rs:633-685", "crates/zune-jpeg/src/bitstream.rs:392-470"]}
{"id": "C94", "title": "PNG text, time, profile and animation-control chunks give what the specification says", "statement": "For every PNG file made of any chunks the decoder knows in any number and order, reading the headers gives: every text chunk its keyword and its (decompressed) text, tIME its time, iCCP its profile, acTL the numbers of frames and plays, and the image data is the concatenation of the IDAT chunks.", "quantifier": "all headers, all sequences of chunks, all keywords, texts and times", "why_tests_cant": "Tests have a few text chunks in a few files; order, repetition, keyword length and language tags combine without bound.", "anchors": ["crates/zune-png/src/headers/readers.rs:158-180", "crates/zune-png/src/headers/readers.rs:240-293", "crates/zune-png/src/headers/readers.rs:322-468", "crates/zune-png/src/decoder.rs:389-480"]}
{"id": "C95", "title": "An animated PNG is split into its frames", "statement": "For every animated PNG file, repeated calls of decode_headers read its frames in order: each frame has the concatenated data of its IDAT or fdAT chunks and the position, size, delay, disposal and blending of its own fcTL chunk; the end of the file is reported exactly when all frames were read.", "quantifier": "all files, any number of frames and chunks, any number of calls", "why_tests_cant": "Sample animations have frames of one or two chunks and no other chunks among them; frame boundaries interact with every chunk kind.", "anchors": ["crates/zune-png/src/headers/readers.rs:471-574", "crates/zune-png/src/decoder.rs:389-423", "crates/zune-png/src/apng.rs:29-112"]}
{"id": "C96", "title": "An animated PNG is rendered as the APNG specification says", "statement": "For every animated PNG, the pictures that come out of the decoder are those of the APNG specification: every frame of the animation drawn (or laid over) into its region of the canvas as the frames before it left it after their disposal, with its delay.", "quantifier": "all animations, all regions, disposals and blend operations", "why_tests_cant": "The canvas depends on all frames before; tests compare a few animations, most of which use one disposal operation.", "anchors": ["crates/zune-png/src/apng.rs:216-390", "crates/zune-png/src/decoder.rs:588-713", "crates/zune-image/src/codecs/png.rs:38-90", "crates/zune-png/src/decoder.rs:745-829"]}
{"id": "C97", "title": "Progressive JPEG files are decoded as T.81 says", "statement": "For every progressive JPEG file with any number of scans (first scans and refinements of DC coefficients and of bands of AC coefficients, in any legal order, interleaved or of one component, with tables and restart intervals that may change between scans), the picture is that of the coefficients as far as the scans sent them: dequantised, inverse transformed, upsampled and converted, pixel for pixel.", "quantifier": "all legal sequences of scans, all coefficients, tables, restart intervals, sizes, colour spaces and sampling factors", "why_tests_cant": "A scan depends on what all scans before it sent; the number of scripts of scans is unbounded, and test images come from one or two encoders, each with one script.", "anchors": ["crates/zune-jpeg/src/mcu_prog.rs:40-207", "crates/zune-jpeg/src/mcu_prog.rs:211-441", "crates/zune-jpeg/src/mcu_prog.rs:485-632", "crates/zune-jpeg/src/bitstream.rs:380-640"]}
{"id": "C98", "title": "The JPEG decoder never panics or hangs on arbitrary bytes, progressive files included", "statement": "Whatever the bytes given to the JPEG decoder, strict or not and for any limit of the number of scans, decoding ends with pixels or an error: no loop runs for ever, no index or slice is outside its array, and the countdown of restart intervals never goes below zero.", "quantifier": "all byte strings, options, output colour spaces and numbers of scans", "why_tests_cant": "Fuzzing reaches few states behind valid headers and tables; damaged scans, segments between scans and colour spaces that do not fit the components combine without bound.", "anchors": ["crates/zune-jpeg/src/mcu_prog.rs:49-207", "crates/zune-jpeg/src/mcu_prog.rs:211-441", "crates/zune-jpeg/src/mcu_prog.rs:442-482", "crates/zune-jpeg/src/mcu_prog.rs:485-632", "crates/zune-jpeg/src/bitstream.rs:519-753", "crates/zune-jpeg/src/misc.rs:299-343"]}
{"id": "C99", "title": "Edge filters compute the gradient magnitude", "statement": "Sobel, Scharr and Prewitt on 8 and 16 bit channels yield for every pixel the integer part of the square root of Gx\u00b2 + Gy\u00b2, clamped to the largest sample, Gx and Gy being the sums of the nine neighbours (edge pixels repeated) weighted by the two kernels of the filter; the f64 square root and cast are the exact integer root.", "quantifier": "all images, sizes and sample values, both depths", "why_tests_cant": "Tests run the filters for the absence of errors only; a wrong neighbour in a kernel changes values slightly everywhere and looks like an edge picture still.", "anchors": ["crates/zune-imageprocs/src/sobel.rs:136-168", "crates/zune-imageprocs/src/scharr.rs:182-212", "crates/zune-imageprocs/src/prewitt.rs:51-83", "crates/zune-imageprocs/src/spatial.rs:153-200"]}
{"id": "C100", "title": "Compositing lays the source over the destination", "statement": "Composite puts the source picture at the place given (or that of the gravity), cut off at the edges of the destination, and changes nothing outside: Over replaces samples, with alpha it yields \u03b1\u00b7source + (1 \u2212 \u03b1)\u00b7destination, and \u03b1 + \u03b2(1 \u2212 \u03b1) for the alpha channel; Src works on a blank canvas, Dst changes nothing, DstIn masks the destination. An opaque source is copied exactly, a transparent one leaves the destination.", "quantifier": "all pictures (colour spaces, depths of 8 and 16 bits, frames), sizes, places and samples", "why_tests_cant": "The test composes random pictures and looks for the absence of errors; f32 rounding for all triples of 16-bit samples and places partly outside cannot be enumerated.", "anchors": ["crates/zune-imageprocs/src/composite.rs:101-275", "crates/zune-imageprocs/src/composite.rs:283-402", "crates/zune-imageprocs/src/utils.rs:60-85"]}
{"id": "C101", "title": "Rotation: dimensions, safety and samples", "statement": "Rotating by a quarter turn exchanges width and height; rotating by any angle writes every sample of the output, never reads outside of the picture and yields samples within the depth, each being the interpolated picture at the place turned back about the centre, or white outside; rotating by zero degrees changes nothing.", "quantifier": "all sizes, samples, angles (any values of sine and cosine)", "why_tests_cant": "Whether the rounded up sum of width\u00b7cos and height\u00b7sin hits the exact size depends on the bits of the size; out of range reads depend on angle, size and position together.", "anchors": ["crates/zune-imageprocs/src/rotate.rs:25-45", "crates/zune-imageprocs/src/rotate.rs:127-144", "crates/zune-imageprocs/src/rotate.rs:181-235"]}
{"id": "C102", "title": "Automatic orientation shows pictures as the Exif tag says", "statement": "auto_orient transforms the picture so that it is shown as TIFF tag 274 demands for every value 1 to 8 (which side of the stored picture is at the top and which at the left), sets the dimensions accordingly and resets the tag, so that a second run changes nothing; other values, pictures without the tag stay.", "quantifier": "all pictures, sizes and lists of Exif fields", "why_tests_cant": "Tests with a photo or two cover some of the eight orientations; a wrong combination of flips differs in a mirrored picture only.", "anchors": ["crates/zune-imageprocs/src/auto_orient.rs:43-115", "crates/zune-imageprocs/src/rotate.rs:127-144"]}
{"id": "C103", "title": "Brightness, contrast, exposure and gamma follow their formulas", "statement": "On 8 and 16 bit samples (contrast: 8 bit) brighten, contrast and exposure yield the value of the documented formula, saturated and rounded down, up to the stated f32 error; gamma yields m\u00b7(x/m)^\u03b3 likewise and never leaves its table; all four keep the order of samples, and their neutral settings change nothing.", "quantifier": "all samples, all settings (rational numbers), both depths; gamma: all monotone power functions with 0 and 1 fixed", "why_tests_cant": "Settings are floats, so they cannot be enumerated; order and error bounds are statements on pairs of samples for all settings.", "anchors": ["crates/zune-imageprocs/src/brighten.rs:130-139", "crates/zune-imageprocs/src/contrast.rs:103-114", "crates/zune-imageprocs/src/exposure.rs:87-118", "crates/zune-imageprocs/src/gamma.rs:34-57", "crates/zune-imageprocs/src/gamma.rs:148-158"]}
{"id": "C104", "title": "Convolution is the weighted sum of the neighbourhood", "statement": "With 9, 25 or 49 weights every output sample is the sum of the neighbours (border samples repeated), each times the weight at the same place of the square, times the scale, saturated and rounded down, up to 52\u00b72\u207b\u00b2\u2074 of the sum of magnitudes; with whole weights of moderate size and a scale of one over a power of two it is exact. Other numbers of weights give an error; nothing panics.", "quantifier": "all pictures, sizes, weights and scales (rational numbers)", "why_tests_cant": "A swapped row or column of weights or a border error is invisible with the symmetric kernels and constant pictures of tests; rounding errors depend on all 49 products.", "anchors": ["crates/zune-imageprocs/src/convolve.rs:131-177", "crates/zune-imageprocs/src/convolve.rs:180-286", "crates/zune-imageprocs/src/convolve.rs:291-335"]}
{"id": "C105", "title": "GIF headers are read as specified", "statement": "Of every GIF87a or GIF89a file decode_headers gets the screen size, flags, background index, aspect ratio and the global colour table with 2^(n+1) colours, and is then behind it; other signatures and pictures beyond the limits are refused, files whose table is cut off too; decode_into writes the pictures of the file.", "quantifier": "all files, limits and buffers", "why_tests_cant": "The crate has no tests; that nothing of the image data influences the output is a statement on all files.", "anchors": ["crates/zune-gif/src/decoder.rs:52-119", "crates/zune-gif/src/decoder.rs:133-195"]}
{"id": "C106", "title": "Blending and colour matrices compute the documented sums", "statement": "blend makes every sample \u03b1\u00b7source + (1\u2212\u03b1)\u00b7destination for 0 < \u03b1 < 1 (rounded down, up to 5\u00b72\u207b\u00b2\u2074 of the largest sample), leaves the picture for \u03b1 \u2264 0 and copies the source for \u03b1 \u2265 1; color_matrix makes every colour the sum of its row, the offset counted in largest samples, saturated and rounded down up to 6\u00b72\u207b\u00b2\u2074 of the magnitudes; the identity matrix changes nothing, and the matrix documented as inverting inverts.", "quantifier": "all samples, alphas and matrices (rational numbers), 8 and 16 bits", "why_tests_cant": "Examples take alphas and matrices with exact products; a wrong row, column or rounding shows only for particular samples.", "anchors": ["crates/zune-imageprocs/src/blend.rs:102-157", "crates/zune-imageprocs/src/color_matrix.rs:174-227"]}
{"id": "C107", "title": "HSV adjustment is neutral, grey and black where documented", "statement": "hsv_adjust computes the linear map of its matrix up to 10\u00b72\u207b\u00b2\u2074 of the magnitudes, saturated and rounded down; saturation 0 gives grey, lightness 0 or less black, and hue 0, saturation 1, lightness 1 the same picture.", "quantifier": "all pixels, angles (sine and cosine as parameters), saturations and lightnesses, 8 and 16 bits", "why_tests_cant": "There is no test of values; an error of one thousandth in a constant is invisible to the eye.", "anchors": ["crates/zune-imageprocs/src/hsv_adjust.rs:147-181"]}
{"id": "C108", "title": "Unsharp masking adds the difference to the blurred picture", "statement": "For every sample the step of unsharpen adds original \u2212 blurred, saturated, if it exceeds the threshold and leaves it otherwise.", "quantifier": "all samples, blurred samples and thresholds, 8 and 16 bits", "why_tests_cant": "The effect depends on pairs of values; wrapping shows only for samples darker than the neighbourhood or above half of the range.", "anchors": ["crates/zune-imageprocs/src/unsharpen.rs:192-206", "crates/zune-imageprocs/src/unsharpen.rs:240-251"]}
{"id": "C109", "title": "Transfer tables keep black, white and the order of samples", "statement": "The conversion between gamma and linear samples maps every sample through a table; black and white are kept, the tables are monotone, the function Linear changes nothing, and linearising and going back gives the picture again up to small errors.", "quantifier": "all samples and transfer functions, 8 and 16 bits (powf and log10 as parameters)", "why_tests_cant": "There are no tests of values; the curves look plausible even if a clamp is wrong or dark samples vanish.", "anchors": ["crates/zune-imageprocs/src/image_transfer.rs:76-91", "crates/zune-imageprocs/src/image_transfer.rs:128-162", "crates/zune-imageprocs/src/image_transfer/trc.rs:13-65"]}
{"id": "C110", "title": "Bilinear resizing samples the interpolated picture", "statement": "Without panic every new sample is the continuously interpolated picture at x\u00b7w/w\u2032, y\u00b7h/h\u2032, rounded, up to the errors of f32; one colour stays one colour, and the same size gives the same picture.", "quantifier": "all pictures and sizes up to 2^21 in each direction", "why_tests_cant": "Errors in the last place depend on particular sizes; tests compare pictures by eye.", "anchors": ["crates/zune-imageprocs/src/resize/bilinear.rs:11-63"]}
{"id": "C111", "title": "Separable resizing sums the kernel over the samples around", "statement": "Without panic every new sample is the weighted sum of the samples within the radius of (x+1/2)\u00b7w/w\u2032 \u2212 1/2, the weights being the kernel at the distances divided by their sum, clamped and rounded, up to the errors of f32; one colour stays one colour.", "quantifier": "all pictures, kernels of radius 1 to 3 and sizes up to 2^20", "why_tests_cant": "Windows are clipped at the borders and the weights normalised for every position; an index error of one shows only at borders or for certain ratios.", "anchors": ["crates/zune-imageprocs/src/resize/seperable_kernel.rs:25-54", "crates/zune-imageprocs/src/resize/seperable_kernel.rs:56-229", "crates/zune-imageprocs/src/resize/seperable_kernel.rs:359-411", "crates/zune-imageprocs/src/resize/seperable_kernel.rs:445-466"]}
{"id": "C112", "title": "Ratio-preserving dimensions fit or cover the box", "statement": "ratio_dimensions_smaller gives the largest dimensions of the old ratio that fit into the box, ratio_dimensions_larger the smallest that cover it.", "quantifier": "all dimensions up to 2^26", "why_tests_cant": "Both are floating point formulas without tests; the off-by-one results depend on particular pairs.", "anchors": ["crates/zune-imageprocs/src/resize.rs:230-240", "crates/zune-imageprocs/src/resize.rs:250-260"]}
{"id": "C113", "title": "Bilateral filtering is a weighted mean over a disk", "statement": "Every new sample is the mean of the samples in a disk around its place, weighted by the distance of the places and by the difference to the sample at the place; it stays between the samples around, and a picture of one colour stays as it is.", "quantifier": "all pictures, diameters and positive weights, 8 and 16 bits", "why_tests_cant": "The filter smooths in any case; that the wrong neighbours are averaged shows only against a reference.", "anchors": ["crates/zune-imageprocs/src/bilateral_filter.rs:136-223"]}
{"id": "C114", "title": "The Gaussian blur is three box blurs in each direction whose widths match sigma", "statement": "Without panic every row and then every column is blurred by three boxes; the widths are odd, differ by 2 at most and have together the variance sigma\u00b2, up to half a step; sigma 0 changes nothing.", "quantifier": "all pictures, all sigma (root of f32 as a parameter), 8 and 16 bits", "why_tests_cant": "Any blur looks like a blur; a radius used as a width doubles the deviation without any test noticing.", "anchors": ["crates/zune-imageprocs/src/gaussian_blur.rs:169-204", "crates/zune-imageprocs/src/gaussian_blur.rs:215-246", "crates/zune-imageprocs/src/gaussian_blur.rs:310-366"]}
{"id": "C115", "title": "An affine transformation moves the picture by its matrix", "statement": "A transformation with an inverse gives a picture as large as the box around the transformed corners, in which every sample is the interpolated picture at the point that the inverse matrix has for its place, and white outside; the identity changes nothing, translations move the picture, quarter turns are exact, inverse is the inverse, and a.then(b) applies a and then b.", "quantifier": "all pictures up to 2^24 in each direction and all matrices (sines and cosines as parameters), 8 and 16 bits", "why_tests_cant": "Transformed pictures are interpolated and framed by white anyway; a lost row or a shift by one place is not seen without a reference.", "anchors": ["crates/zune-imageprocs/src/affine.rs:93-128", "crates/zune-imageprocs/src/affine.rs:197-225", "crates/zune-imageprocs/src/affine.rs:228-311"]}
{"id": "C116", "title": "RGB to HSV and back is right up to rounding", "statement": "For samples from 0 to 1 rgb_to_hsv gives the hue, saturation and value of the colour (hue up to whole turns and 5*2^-24, saturation up to 4*2^-24, value exactly, grey with hue and saturation 0), hsv_to_rgb gives the channels of the hexagon of hues up to 11*2^-24, and going there and back changes no sample by more than 45*2^-24; nothing leaves the range from 0 to 1.", "quantifier": "all f32 samples from 0 to 1 and all channels of the same length", "why_tests_cant": "The tests convert 100 random colours and allow errors of 0.001; borders between the sixths of the circle, hues just below a whole turn and tiny differences are practically never hit at random.", "anchors": ["crates/zune-image/src/core_filters/colorspace/rgb_to_hsv.rs:1-48", "crates/zune-image/src/core_filters/colorspace/rgb_to_hsv.rs:50-74"]}
{"id": "C117", "title": "RGB to HSL and back is right up to rounding", "statement": "For samples from 0 to 1 rgb_to_hsl gives the lightness (up to 2*2^-24), the hue (up to whole turns and 5*2^-24) and a saturation whose product with the room at that lightness is the distance of the least and greatest sample up to 8*2^-24, hsl_to_rgb gives the channels of the hexagon of hues up to 85*2^-24, and going there and back changes no sample by more than 123*2^-24.", "quantifier": "all f32 samples from 0 to 1 and all channels of the same length", "why_tests_cant": "As for HSV; in addition the saturation is ill-conditioned near black and white, where random tests do not go.", "anchors": ["crates/zune-image/src/core_filters/colorspace/rgb_to_hsl.rs:8-80", "crates/zune-image/src/core_filters/colorspace/rgb_to_hsl.rs:82-106"]}
{"id": "C118", "title": "Pictures of 8 and 16 bits survive HSV and HSL within a few steps", "statement": "Converting an RGB picture of 8 or 16 bits to HSV (HSL) stores for every pixel hue, saturation and value (lightness) of a colour at most 8 (10) steps away in each channel; converting an HSV or HSL picture to RGB writes the colour described up to 2 steps; there and back no sample changes by more than 8 (10) steps, and the conversions never fail. They are not lossless: yellow loses green in 8 bits.", "quantifier": "all RGB frames of 8 or 16 bits with channels of the same length and all their pixels", "why_tests_cant": "The tests go there and back in f32 only, where truncation to whole samples never happens; all 2^24 (2^48) colours cannot be tried on three conversions.", "anchors": ["crates/zune-image/src/core_filters/colorspace/conversion_functions.rs:300-395", "crates/zune-image/src/core_filters/depth.rs:141-192"]}
{"id": "C119", "title": "NEON kernels of the JPEG decoder agree with the scalar code", "statement": "On aarch64 the inverse transform, the YCbCr conversion to RGB and RGBA and the three upsampling kernels written with NEON instructions produce exactly the samples and bytes of the scalar functions: the transform for every block of 32-bit coefficients, the colour conversion for every 16-bit sample, upsampling for rows of every length from 3 on; the selected transform equals the full 8x8 transform and the shared coefficient buffer is always cleared.", "quantifier": "all coefficient blocks, all sequences of blocks, all 16-bit samples, all line widths and row lengths", "why_tests_cant": "NEON code runs only on ARM machines, where the tests compare a few blocks and rows with the scalar result; every block and the row lengths around the vector widths cannot be tried.", "anchors": ["crates/zune-jpeg/src/idct/neon.rs:61-257", "crates/zune-jpeg/src/unsafe_utils_neon.rs:18-265", "crates/zune-jpeg/src/color_convert/neon64.rs:17-144", "crates/zune-jpeg/src/upsampler/neon.rs:14-189"]}
{"id": "C120", "title": "SSE4.1 transposition is a transposition", "statement": "On a processor with SSE4.1, transposing a channel of 8-bit, 16-bit or float samples moves sample (x, y) to (y, x) for every size of picture, no unchecked vector load or store leaves the slice it is made through, and the result is the one of the scalar code.", "quantifier": "all channels, widths, heights and sample types", "why_tests_cant": "The register networks move 64 values through up to twelve instructions and the tile offsets interact with widths and heights that are not multiples of the tile; tests compare one or two sizes with the scalar code, which is itself wrong for small ones.", "anchors": ["crates/zune-imageprocs/src/transpose/sse41.rs:76-571", "crates/zune-imageprocs/src/transpose.rs:50-195", "crates/zune-imageprocs/src/transpose/scalar.rs:9-79"]}
{"id": "C121", "title": "Edge filters of float channels compute the length of the gradient", "statement": "The Sobel, Scharr and Prewitt filters of a channel of floats give, at every place, the length of the gradient by the documented matrices up to rounding errors proportional to the largest sample, exactly 0 in a flat picture, with the picture continued by its border and no panic.", "quantifier": "all float channels, sizes and samples", "why_tests_cant": "Tests of the float versions only time them or compare a picture with itself; the size of rounding errors and the value for flat pictures are statements about all samples.", "anchors": ["crates/zune-imageprocs/src/sobel.rs:102-181", "crates/zune-imageprocs/src/scharr.rs:148-227", "crates/zune-imageprocs/src/prewitt.rs:17-96", "crates/zune-imageprocs/src/spatial.rs:150-194"]}
{"id": "C122", "title": "Upsampling by portable SIMD equals the scalar code", "statement": "The three upsampling functions of the JPEG decoder built with the feature portable_simd (windows of 18 samples, vectors of 16 lanes, overlapping remainders) write exactly the samples of the scalar functions, i.e. those of the triangle filter, for every length of row, never panic and leave no place unwritten.", "quantifier": "all rows of at least three samples in 0..255 (vertically: all samples and lengths), all previous contents of the output", "why_tests_cant": "The crate's tests of the kernel compare rows of 1024, 512 and 33 samples of one ramp; equality for all lengths modulo the step and all samples is a statement about infinitely many rows.", "anchors": ["crates/zune-jpeg/src/upsampler/portable_simd.rs:14-168", "crates/zune-jpeg/src/upsampler.rs:90-163"]}
{"id": "C123", "title": "The match finder of the deflate encoder only reports copies that are there", "statement": "compress_block returns for every block, and its sequences stand for the block: each match repeats bytes that really occur at its distance, with lengths and distances deflate can express; the comparison eight bytes at a time counts exactly the equal bytes; every sequence has a place of its own in EncodedSequences.", "quantifier": "all blocks, limits of the search and contents left in the tables by earlier blocks", "why_tests_cant": "The match finder has no tests at all (the encoder does not call it yet); wrong matches depend on hash collisions, stale links and blocks ending with a match.", "anchors": ["crates/zune-inflate/src/encoder/hc_matchfinder.rs:80-352", "crates/zune-inflate/src/encoder.rs:52-58", "crates/zune-inflate/src/encoder.rs:244-274"]}
{"id": "C124", "title": "Pictures made from samples, a function or a constant show them", "statement": "from_u8, from_u16 and from_f32 accept exactly as many samples as the picture has, and at least one, and sample c of the pixel in row y and column x is the one at (y*width+x)*components+c; flattening gives the samples back. fill and from_fn make the constant picture and that of the function called with row and column; modify_pixels_mut replaces each pixel of each frame by what the function makes of it and changes nothing else. The bytes of a 16-bit picture are its interleaved samples in the given byte order.", "quantifier": "all pictures, sizes, colour spaces (from_fn: one to four components), functions and processors", "why_tests_cant": "Tests look at small squares; swapped rows and columns need pictures that are not square, byte orders and the cases of five and more components need pictures no test has.", "anchors": ["crates/zune-image/src/image.rs:39-43", "crates/zune-image/src/image.rs:265-274", "crates/zune-image/src/image.rs:319-477", "crates/zune-image/src/image.rs:526-597", "crates/zune-image/src/frame.rs:410-578"]}
{"id": "C125", "title": "Radiance files are read back and their pixels mean what the format says", "statement": "decode_headers reads the dimensions and every key and value that encode wrote and refuses dimensions above the limits; a whole file gives back its RGBE bytes; convert_scanline turns RGBE bytes into val*2^(e-136); pixels survive encoding and decoding up to the precision of RGBE; expected_buffer_size is large enough.", "quantifier": "all dimensions, ASCII headers, scanlines of 8 to 32767 pixels, bytes and exponents; all functions exp2 of the platform", "why_tests_cant": "Tests check one file by its hash and the encoder not at all; wrong exponents only show for pixels brighter than 2^31 or darker than 2^-31, losses of the encoder in dark parts.", "anchors": ["crates/zune-hdr/src/decoder.rs:112-212", "crates/zune-hdr/src/decoder.rs:295-394", "crates/zune-hdr/src/decoder.rs:440-519", "crates/zune-hdr/src/encoder.rs:61-67", "crates/zune-hdr/src/encoder.rs:129-204", "crates/zune-hdr/src/encoder.rs:260-350"]}
{"id": "C126", "title": "A picture that is saved and opened again is the picture", "statement": "Image::write_to_vec followed by Image::read, which guesses the format from the bytes, gives back the picture when the format can hold it, and otherwise the picture converted to the colour space and depth of the encoder: same size, same planes after the conversion, alpha kept where the format has it.", "quantifier": "all well formed pictures in RGB, RGBA, BGR, BGRA, Luma, LumaA of any depth, size and number of frames; QOI, PPM/PAM and farbfeld; all decoder options that allow the size; all processors", "why_tests_cant": "The parts (conversion, interleaving, codec, guessing, splitting) are tested one by one on few pictures, none with its first sample a white space character; that saving and opening compose is a statement about all pictures.", "anchors": ["crates/zune-image/src/codecs.rs:284-345", "crates/zune-image/src/codecs.rs:547-560", "crates/zune-image/src/codecs.rs:652-699", "crates/zune-image/src/image.rs:171-196", "crates/zune-image/src/codecs/qoi.rs:31-45", "crates/zune-image/src/codecs/qoi.rs:105-118", "crates/zune-image/src/codecs/ppm.rs:45-59", "crates/zune-image/src/codecs/ppm.rs:96-116", "crates/zune-image/src/codecs/farbfeld.rs:30-41", "crates/zune-image/src/codecs/farbfeld.rs:111-127"]}
{"id": "C127", "title": "The C interface makes pictures of the caller's samples and gives them back", "statement": "zil_zimg_from_u8, zil_zimg_from_u16 and zil_zimg_from_f32 make a picture of the given size and colour space whose planes are the caller's samples when there are enough of them, and return null otherwise; zil_zimg_write_to_output fills memory of at least the size zil_zimg_get_out_buffer_size returns with the samples of the first frame in order; the enumerations of the interface and of the library correspond.", "quantifier": "all sample lists, sizes, colour spaces, processors, pictures and memory contents", "why_tests_cant": "The interface has no test that makes a picture; that the functions for 16 bit and float samples fail for every input is a statement about all inputs.", "anchors": ["crates/zune-capi/src/image.rs:73-150", "crates/zune-capi/src/image.rs:357-461", "crates/zune-capi/src/enums.rs:119-185"]}
{"id": "C128", "title": "The C interface manages its memory", "statement": "Statuses can be made, used for any number of reports and freed; no memory is freed twice, dropped before it holds a value, or lost: each address handed out or replaced is freed exactly once.", "quantifier": "all heaps, all statuses, all sequences of reports, all outcomes of a decode", "why_tests_cant": "Freeing memory twice or dropping uninitialised memory often goes unnoticed in a run; the one test of the interface frees a status with zil_free instead of zil_status_free. A model of the heap covers all sequences of calls.", "anchors": ["crates/zune-capi/src/errno.rs:52-170", "crates/zune-capi/src/utils.rs:38-67", "crates/zune-capi/src/image.rs:158-162", "crates/zune-capi/src/imread.rs:238-359"]}
{"id": "C129", "title": "Decoding through the C interface gives what the library decodes", "statement": "zil_imdecode_into writes the decoded samples of a file to the start of the caller's memory when there is enough of it, leaves the rest alone, and returns size, depth and number of channels; otherwise the status says what is wrong and nothing is returned; no file makes the process end.", "quantifier": "all byte sequences with the signature of a PPM/PAM, QOI, PNG or farbfeld file, all memory contents and sizes", "why_tests_cant": "No test of the interface decodes a file; that no PNG, QOI or farbfeld file whatever can be decoded is a statement about all files.", "anchors": ["crates/zune-capi/src/imread.rs:305-545", "crates/zune-image/src/utils.rs:191-199", "crates/zune-png/src/decoder.rs:248-257"]}
{"id": "C130", "title": "Headers and formats as the C interface tells them", "statement": "zil_read_headers_from_memory returns width, height, depth, colour space and format of a file exactly and sets the status to success; a file it does not know gives zeros and an error; it agrees with what zil_imdecode_into returns; no memory is lost; zil_guess_format names a format just when the file has its signature; after a picture has been read the status says so.", "quantifier": "all PPM, PAM, QOI and farbfeld files within the limits, all byte sequences without a signature, all states of the heap", "why_tests_cant": "The interface has no tests; the claims range over all headers and over all sequences of calls that led to the state of the heap.", "anchors": ["crates/zune-capi/src/imread.rs:186-222", "crates/zune-capi/src/enums.rs:15-115", "crates/zune-capi/src/structs.rs:6-25", "crates/zune-capi/src/utils.rs:22-29", "crates/zune-capi/src/image.rs:217-245"]}
{"id": "C131", "title": "The unsharp mask as a whole: the same with and without threads, the difference to the gaussian blur added above the threshold, pictures of one colour unchanged", "statement": "Unsharpen gives the same picture with the feature threads and without it, although without it the two buffers of the blur are used again from channel to channel. Every sample becomes itself plus its difference to the gaussian blur of its channel at that place if the difference exceeds the threshold, limited to the largest sample, and stays otherwise. Pictures of one colour are not changed. A threshold no difference can exceed changes nothing.", "quantifier": "all pictures of 8 and 16 bits with sides of at least 8, any number of channels, all contents of the buffers, all thresholds, all radii that fit the sums of the box blur", "why_tests_cant": "the two executions are different builds; left-over contents of buffers and thresholds above 255 are not exercised by the tests of sizes and throughput", "anchors": ["crates/zune-imageprocs/src/unsharpen.rs:54-158", "crates/zune-imageprocs/src/unsharpen.rs:181-252"]}
{"id": "C132", "title": "Pictures saved to files: the format of the extension, the bytes of the encoder, and failures that are told", "statement": "Image::save writes the file in the format of the extension of its name when that format has an encoder, and refuses other names leaving the file as it was. The file holds exactly the bytes of the encoder, however they pass through the buffer, and save succeeds only if it does; a picture saved as QOI is opened again. Formats with an encoder have a decoder and an extension. A picture that can not be encoded does not damage a file that was there.", "quantifier": "all file names, all sets of features, all sequences of pieces an encoder writes, all sizes of the buffer, all amounts of room on the device", "why_tests_cant": "full devices, files that are overwritten by failing encoders and all combinations of features are not part of the tests", "anchors": ["crates/zune-image/src/codecs.rs:107-126", "crates/zune-image/src/codecs.rs:268-282", "crates/zune-image/src/codecs.rs:354-429", "crates/zune-image/src/codecs.rs:456-517", "crates/zune-core/src/bytestream/writer/std_writer.rs:7-28"]}
{"id": "C133", "title": "Operations through the C interface do what the library does and tell it in the status", "statement": "The operations of the C interface leave the picture that OperationsTrait::execute leaves and tell in the status whether it succeeded: pictures the operation does not support are refused, failures are reported, null pictures are reported, a null status means that nothing is done.", "quantifier": "all operations, pictures, contents of the memory and earlier statuses", "why_tests_cant": "the interface is called from C; earlier errors in a status and pictures an operation does not support have no tests", "anchors": ["crates/zune-capi/src/improc.rs:27-49", "crates/zune-capi/src/improc.rs:119-135", "crates/zune-image/src/traits.rs:145-196", "crates/zune-imageprocs/src/invert.rs:50-76"]}
{"id": "C134", "title": "Sums and differences of pictures", "statement": "The operators + and - on pictures of the same depth, size and colour space give the picture with the sums (differences) of the colour samples, limited to the range of the samples; alpha, frames without a partner and everything else are those of the first picture. They panic exactly when depth, size or colour space differ.", "quantifier": "all pairs of well formed pictures, all colour spaces, any number of frames", "why_tests_cant": "the only test adds a black picture to itself", "anchors": ["crates/zune-image/src/ops.rs:22-167", "crates/zune-image/src/image.rs:142-162", "crates/zune-image/src/frame.rs:265-295"]}
{"id": "C135", "title": "Options of encoders are those that were set", "statement": "After any sequence of calls, each option of an encoder is the value set last, or the documented default (quality limited to 100). Encoders of pictures take size, depth and colour space from the picture, write progressive JPEG files when asked to and leave out Exif data exactly when asked to strip metadata.", "quantifier": "all sequences of setters, all pictures and Exif fields", "why_tests_cant": "there are no tests of the options, and sequences of calls are unbounded", "anchors": ["crates/zune-core/src/options/encoder.rs:26-217", "crates/zune-image/src/codecs.rs:59-75", "crates/zune-image/src/codecs/jpeg.rs:168-197", "crates/zune-image/src/codecs/png.rs:180-207"]}
{"id": "C136", "title": "Options of decoders are those that were set, and intrinsics can be turned off", "statement": "After any constructor and any sequence of calls, each option of a decoder is the value set last, or the documented default. A path with platform intrinsics is taken only on machines that have them, and never after new_safe or set_use_unsafe(false).", "quantifier": "all sequences of setters, all constructors, all sets of machine features", "why_tests_cant": "there are no tests of the options; tests run on one machine", "anchors": ["crates/zune-core/src/options/decoder.rs:16-72", "crates/zune-core/src/options/decoder.rs:118-315", "crates/zune-core/src/options/decoder.rs:318-666"]}
{"id": "C137", "title": "The command line program writes each output in the format of its name", "statement": "After `zune -i in -o out1 -o out2 \u2026 operations`, each output holds the picture after all operations in the format its extension names, no other file is changed, and the program fails when it cannot do so.", "quantifier": "all pictures, decoders, encoders and operations, any number of outputs, any names, any files present before", "why_tests_cant": "the program has no tests; combinations of outputs and operations are unbounded", "anchors": ["crates/zune-bin/src/workflow.rs:44-214", "crates/zune-bin/src/file_io.rs:28-48", "crates/zune-image/src/codecs.rs:354-429", "crates/zune-image/src/pipelines.rs:152-241"]}
{"id": "C138", "title": "Pictures and numpy arrays are the same", "statement": "from_numpy takes arrays of two axes, or three with one to four components, of all documented types and raises an exception for others; to_numpy of the picture gives back the array, shape and elements. Animations become arrays of four axes, frame after frame.", "quantifier": "all shapes, elements, element types and processors", "why_tests_cant": "the binding is not tested; shapes and types combine without bound", "anchors": ["crates/zune-python/src/py_image.rs:654-885", "crates/zune-python/src/py_image/numpy_bindings.rs:18-118", "crates/zune-image/src/utils.rs:118-189"]}
