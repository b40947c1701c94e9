{"id": "C01", "title": "Compressed stream survives serialisation", "statement": "For every stream built by any sequence of chunk-compression calls, CompressedStream::from_bytes(to_bytes(s)) succeeds and gives a stream with the same header version, the same frame count byte and the same frames, so decompress() of the re-read stream equals decompress() of the original.", "quantifier": "every sequence of compress_chunk / compress_chunk_with / compress_chunk_bounded_with calls, every chunk content, every compressor, every error bound", "why_tests_cant": "the frames carry variable-length integers whose width changes at 251, 2^16 and 2^32, and sequences of frames are unbounded; tests sample one 1024-sample stream", "anchors": ["atsc/src/data.rs:CompressedStream::to_bytes,from_bytes", "atsc/src/header.rs:CompressorHeader", "atsc/src/frame/mod.rs:CompressorFrame"]}
{"id": "C02", "title": "A truncated stream is never silently decoded", "statement": "If a crash leaves only a strict prefix of the bytes produced by to_bytes, from_bytes fails on that prefix (panics); it never returns a stream, whatever the crash point.", "quantifier": "every stream and every cut point (every strict prefix)", "why_tests_cant": "quantifies over every crash point of every possible file", "anchors": ["atsc/src/data.rs:from_bytes", "atsc/src/main.rs:process_single_file (std::fs::write)"]}
{"id": "C03", "title": "Bytes after the encoded stream are ignored", "statement": "Appending arbitrary bytes after a serialised stream does not change the stream that from_bytes returns.", "quantifier": "every stream, every suffix", "why_tests_cant": "the suffix is arbitrary", "anchors": ["atsc/src/data.rs:from_bytes (discarded consumed length)"]}
{"id": "C04", "title": "Only BRRO files of a supported version are decoded", "statement": "from_bytes succeeds only if the input has at least 9 bytes, starts with the bytes BRRO and carries a little-endian version not greater than the current version 1; a stream whose version is greater than 1 is rejected whatever follows.", "quantifier": "every byte string", "why_tests_cant": "the input is an arbitrary byte string", "anchors": ["atsc/src/header.rs:from_bytes,verify_header_versions", "atsc/src/data.rs:from_bytes"]}
{"id": "C05", "title": "Header frame count counts the frames modulo 256", "statement": "After any sequence of n chunk-compression calls the stream holds n frames and the frame count reported by the header is n modulo 256 in a release build; in a debug build the count is n and no sequence of more than 255 calls succeeds. So for up to 255 chunks the header counts the frames. (That it always does is refuted: 256 chunks are reported as 0.)", "quantifier": "every sequence of calls, any length", "why_tests_cant": "sequences of calls are unbounded; tests add one frame", "anchors": ["atsc/src/header.rs:add_frame,get_frame_count", "atsc/src/data.rs:compress_chunk*"]}
{"id": "C06", "title": "Decompressing a stream concatenates its chunks in order", "statement": "decompress() of a stream is the concatenation, in insertion order, of what each chunk alone would decompress to; adding a later chunk never changes what earlier chunks decode to.", "quantifier": "every sequence of chunk-compression calls", "why_tests_cant": "unbounded sequences and arbitrary chunk contents", "anchors": ["atsc/src/data.rs:decompress", "atsc/src/frame/mod.rs:decompress"]}
{"id": "C07", "title": "Decompression restores the number of samples", "statement": "For every non-empty chunk - whatever the samples, NaN and infinities included - and every selectable compressor (Noop, Constant, RLE, FFT, Polynomial, IDW; Auto with an error bound of at least 0 and a level from 0 to 6), compressing succeeds and decompressing yields exactly as many samples as the chunk had, so the whole stream yields as many samples as were put in.", "quantifier": "every non-empty chunk, every compressor, every error bound and speed level", "why_tests_cant": "all chunk lengths and contents", "anchors": ["atsc/src/compressor/mod.rs:Compressor::decompress", "atsc/src/compressor/*.rs:to_data"]}
{"id": "C08", "title": "Serialisation is injective", "statement": "Two streams that serialise to the same bytes have equal header and equal frames (the file determines the stream).", "quantifier": "every pair of streams", "why_tests_cant": "a pair of arbitrary streams", "anchors": ["atsc/src/data.rs:to_bytes"]}
{"id": "C09", "title": "Variable-length integers round-trip at every width", "statement": "Every u64/usize, and every i16, i32 and i64 written to a frame is read back unchanged whatever bytes follow it, takes 1, 3, 5 or 9 bytes according to its magnitude, and a truncated integer, or one too wide for its field, is rejected.", "quantifier": "every integer of each type, every suffix", "why_tests_cant": "the 1/3/5/9 byte boundaries over 2^64 values", "anchors": ["atsc/src/compressor/mod.rs:BinConfig::get", "bincode config::standard"]}
{"id": "C10", "title": "When RLE is lossless", "statement": "For every non-empty chunk of finite values, compressing with RLE and decompressing succeeds and returns a sequence equal to the chunk, value by value under f64 ==, exactly when the chunk is stored as f64 or every sample is zero or of magnitude in [2^-64, 2^63). (Losslessness for all finite values is refuted: 2^64 comes back as 255, 2^-65 as 0.)", "quantifier": "every non-empty finite chunk", "why_tests_cant": "arbitrary run structure, arbitrary f64 bit patterns", "anchors": ["atsc/src/compressor/rle.rs:IndexRLE::new,to_data,rle_compressor", "atsc/src/optimizer/utils.rs:DataStats::new,split_n"]}
{"id": "C11", "title": "RLE run structure is reproduced exactly", "statement": "For every non-empty chunk, decompressing RLE output gives at every index the stored (bit-depth-cast) form of the last value of the maximal run of equal values containing that index; every index is covered and runs never leak into each other.", "quantifier": "every non-empty chunk without NaN, every bit depth", "why_tests_cant": "arbitrary interleavings of runs and repeated values", "anchors": ["atsc/src/compressor/rle.rs:IndexRLE::new,to_data"]}
{"id": "C12", "title": "When the Constant compressor is lossless on constant data", "statement": "For every chunk whose samples are all equal to one finite value, compressing with Constant and decompressing succeeds and returns samples equal (f64 ==) to that value, with the same count, exactly when the chunk is stored as f64 or the value is zero or of magnitude in [2^-64, 2^63). (For all finite values this is refuted: 2^64 comes back as 255.)", "quantifier": "every finite constant and every count", "why_tests_cant": "all f64 values and counts", "anchors": ["atsc/src/compressor/constant.rs", "atsc/src/optimizer/utils.rs"]}
{"id": "C13", "title": "Noop stores the nearest integer", "statement": "For every chunk, compressing with Noop and decompressing yields as many samples; a sample that is finite with |x| < 2^63 becomes an integer value within 1/2 of it (halves away from zero), integers come back unchanged, larger magnitudes saturate and NaN becomes 0.", "quantifier": "every f64 sample of every chunk", "why_tests_cant": "all 2^64 bit patterns", "anchors": ["atsc/src/compressor/noop.rs:Noop::optimize,noop,noop_to_data"]}
{"id": "C14", "title": "Chunk statistics are the true extremes", "statement": "For every non-empty finite chunk the statistics report a minimum and a maximum that occur in the chunk at the reported (first) position and bound every sample.", "quantifier": "every non-empty finite chunk", "why_tests_cant": "arbitrary length and values", "anchors": ["atsc/src/optimizer/utils.rs:DataStats::new"]}
{"id": "C15", "title": "When the recommended bit depth can hold every sample", "statement": "For every non-empty finite chunk, converting every sample of the chunk to the recommended storage type (u8, i16, i32 or f64) and back gives an equal value exactly when that type is f64 or every sample is zero or of magnitude in [2^-64, 2^63). (Refuted without the condition: for 0 and 2^63 the recommended type is u8.)", "quantifier": "every non-empty finite chunk, every sample", "why_tests_cant": "depends on the exact bit pattern arithmetic of all f64 values", "anchors": ["atsc/src/optimizer/utils.rs:split_n,DataStats::bitdepth"]}
{"id": "C16", "title": "Polynomial decoder uses the encoder's sample positions", "statement": "For every chunk of two or more different samples (a chunk of equal samples stores no positions) and every point count the compressor can request, the list of positions the decoder interpolates through is exactly the list of positions the encoder stored values for; the one-byte step is never truncated and is never zero.", "quantifier": "every chunk without NaN of fewer than 2^64 samples, both entry points, every finite bound of magnitude up to 2^40, whatever the interpolation library returns", "why_tests_cant": "all lengths; a u8 truncation at step 256 would be silent", "anchors": ["atsc/src/compressor/polynomial.rs:compress_hinted,get_positions,compress,compress_bounded"]}
{"id": "C17", "title": "Polynomial and IDW output stays within the chunk's range", "statement": "Whatever the interpolation library returns, every decompressed sample of a Polynomial/IDW frame that is not NaN lies between the minimum and the maximum of the original chunk.", "quantifier": "every chunk, every interpolation result", "why_tests_cant": "arbitrary spline overshoot over all inputs", "anchors": ["atsc/src/compressor/polynomial.rs:polynomial_to_data,idw_to_data", "atsc/src/utils/mod.rs:round_and_limit_f64"]}
{"id": "C18", "title": "Polynomial bounded search terminates, and what error it reports", "statement": "For every chunk and every bound the bounded Polynomial/IDW search stops after at most 23 rounds. What it reports: 0 for a chunk of equal samples; otherwise, for every bound it searches for (all finite ones of magnitude up to 2^40; not NaN or infinities), the error of what the decoder makes of the kept samples before they are converted to the storage type, or 0 when every sample is kept; and for a bound it does not search for, the bound plus one, with no sample stored. So the report is the error of the decompressed chunk when the samples survive the conversion, in particular for finite samples that are zero (not -0.0) or of magnitude in [2^-64, 2^63). (That it is the error of the decompressed chunk always is refuted by a chunk with 2^64.)", "quantifier": "every non-empty NaN-free chunk, every bound (also NaN, infinite or negative), whatever the interpolation libraries compute", "why_tests_cant": "all chunks and bounds, and a data-dependent search loop", "anchors": ["atsc/src/compressor/polynomial.rs:compress_bounded"]}
{"id": "C19", "title": "What comes back when Polynomial/IDW stores everything", "statement": "When a frame stores every sample, decompression returns every sample to five decimals, and a sample comes back with its value exactly when rounding to five decimals does not change it, or when it is the smallest (largest) of the chunk and would be rounded down (up). (That all values come back is refuted: 1.000001 comes back as 1 although the search reports error 0.)", "quantifier": "every chunk of finite samples that are zero or of magnitude in [2^-64, 2^63), every bound, every interpolation that returns the knot values at the knots", "why_tests_cant": "all float values", "anchors": ["atsc/src/compressor/polynomial.rs", "atsc/src/utils/mod.rs:round_and_limit_f64"]}
{"id": "C20", "title": "FFT output stays within the chunk's range", "statement": "Whatever the FFT library computes, every decompressed sample of an FFT frame that is not NaN lies between the chunk's minimum and maximum rounded to f32.", "quantifier": "every chunk, every FFT result", "why_tests_cant": "arbitrary FFT numerical error", "anchors": ["atsc/src/compressor/fft.rs:round,to_data"]}
{"id": "C21", "title": "Up to which length FFT frequency positions are stored faithfully", "statement": "Each frequency stored by FFT compression carries the number of the FFT bin it came from, and decoding never indexes out of bounds, for every chunk of at most 124415 samples with an error bound and of at most 131071 samples without one. From 124416 (with a bound) and 131072 (without) samples on this is not guaranteed: there is a transform for which, for every chunk of such a length that is not constant in single precision, bin 65536 is stored as bin 0. (So the expectation for every frame the planner can make, whose largest is 131072 samples, is refuted.)", "quantifier": "every chunk of fewer than 2^62 samples that is not constant in single precision, every bound, every transform", "why_tests_cant": "ranges over all lengths and all chunk contents; the boundary lies far beyond test sizes", "anchors": ["atsc/src/compressor/fft.rs:fft_trim,get_mirrored_freqs,FrequencyPoint", "atsc/src/optimizer/mod.rs:MAX_FRAME_SIZE"]}
{"id": "C22", "title": "FFT decoder inverts the encoder's padding", "statement": "For every chunk length, the bounded FFT path decodes with the same transform length as it encoded with, and trimming the padding recovers exactly the positions of the original samples. (A chunk that is one value in single precision, and a bound that is not searched for - see C24 - involve no transform.)", "quantifier": "every NaN-free chunk of fewer than 2^62 samples that is not one value in single precision, every bound that is searched for, every transform", "why_tests_cant": "all lengths around the 128 threshold and all paddings; the unbounded FFT path violates it for 128 samples or more", "anchors": ["atsc/src/compressor/fft.rs:gibbs_sizing,to_data,compress,compress_bounded"]}
{"id": "C23", "title": "FFT keeps at most the requested frequencies, largest first", "statement": "The FFT frame never stores more frequencies than requested or than available, all stored frequencies are non-zero bins of the spectrum (when more than one is requested) and none of the dropped ones has a larger norm than a stored one.", "quantifier": "every NaN-free chunk that is not one value in single precision, every spectrum whose norms are not NaN, every requested count", "why_tests_cant": "arbitrary spectra", "anchors": ["atsc/src/compressor/fft.rs:fft_trim"]}
{"id": "C24", "title": "FFT bounded search terminates, and what error it reports", "statement": "For every chunk and every bound the FFT search stops after at most 23 rounds. What it reports: 0 for a chunk that is one value in single precision; otherwise, for every bound of magnitude up to a million, the error of what the stored frequencies rebuild on the extended chunk; and for a bound it does not search for (NaN, or from 2147484 on), the bound plus one, with no frequency stored. (That it always reports the error of what it stored is refuted by chunks of distinct doubles with one f32 value.)", "quantifier": "every NaN-free chunk and every bound", "why_tests_cant": "all chunks and bounds, and a data-dependent search loop", "anchors": ["atsc/src/compressor/fft.rs:compress_bounded"]}
{"id": "C25", "title": "Auto never fails to find a compressor", "statement": "For every non-empty chunk, every non-negative error bound and every speed level 0..6 the automatic selection succeeds and selects Constant, FFT, Polynomial or RLE; a speed level above 6 is rejected.", "quantifier": "every chunk, bound and level", "why_tests_cant": "depends on NaN-valued errors and on filters over data-dependent results", "anchors": ["atsc/src/frame/mod.rs:compress_best"]}
{"id": "C26", "title": "Auto picks the smallest candidate within the error bound", "statement": "When the whole chunk is used for selection, the stored frame is one whose reported error is within the bound and no other candidate within the bound is smaller.", "quantifier": "every chunk and bound", "why_tests_cant": "data-dependent minimum with NaN errors", "anchors": ["atsc/src/frame/mod.rs:compress_best"]}
{"id": "C27", "title": "Auto stores constant data as a Constant frame", "statement": "If all samples of a chunk are equal, Auto selects Constant; if two samples differ, it does not.", "quantifier": "every finite chunk", "why_tests_cant": "all contents", "anchors": ["atsc/src/frame/mod.rs:compress_best"]}
{"id": "C28", "title": "Error bound 0 means lossless", "statement": "Compressing with Auto and error 0 and decompressing returns the original finite samples.", "quantifier": "every finite chunk", "why_tests_cant": "actually false: values that collapse to one f32 are reported as zero error by FFT, and Polynomial rounds to 5 decimals", "anchors": ["README.md:--error", "atsc/src/frame/mod.rs:compress_best", "atsc/src/compressor/fft.rs:compress_bounded"]}
{"id": "C29", "title": "Error metrics vanish on identical series and are never negative", "statement": "MSE, NMSE, MAE, MAPE and SMAPE of two equally long finite series are never negative (they may be NaN or infinite); MSE and MAE of a series with itself are 0; MAPE of a series with itself is 0 if it contains no zero.", "quantifier": "every pair of finite series of equal length", "why_tests_cant": "floating-point rounding over arbitrary sums", "anchors": ["atsc/src/utils/error.rs"]}
{"id": "C30", "title": "Error metrics reject series of different lengths", "statement": "Each error metric panics exactly when the two series have different lengths.", "quantifier": "every pair of series", "why_tests_cant": "all lengths", "anchors": ["atsc/src/utils/error.rs"]}
{"id": "C31", "title": "MAPE is not a number when a zero sample is reproduced exactly", "statement": "If some original sample is zero and is reproduced exactly as zero, MAPE is NaN, so such a candidate never passes the error filter of Auto.", "quantifier": "every pair of equal-length series containing such a position", "why_tests_cant": "sums over arbitrary data", "anchors": ["atsc/src/utils/error.rs:error_mape", "atsc/src/frame/mod.rs:compress_best"]}
{"id": "C32", "title": "Decimal rounding is clamped and accurate", "statement": "round_and_limit_f64(x, min, max, d) is between min and max for every non-NaN x with min <= max, and is within half a unit of the d-th decimal (plus float error) of x when x is finite, inside and x times 10^d does not overflow. [Not for all finite x: if x times 10^d overflows the result is the upper limit (the lower one for a negative x).]", "quantifier": "every x, min, max, every d up to 9 (10^d as a 32-bit integer)", "why_tests_cant": "all f64", "anchors": ["atsc/src/utils/mod.rs:round_and_limit_f64,round_f64"]}
{"id": "C33", "title": "Next FFT size is the next 3-smooth number", "statement": "next_size(n) is the smallest number greater than n of the form 2^a*3^b, and is_decomposable recognises exactly those numbers among positive integers.", "quantifier": "every n", "why_tests_cant": "all n", "anchors": ["atsc/src/utils/mod.rs:next_size,is_decomposable"]}
{"id": "C34", "title": "Previous power of two", "statement": "prev_power_of_two(n) is the largest power of two not exceeding n for n > 0, and 0 for 0.", "quantifier": "every n < 2^64", "why_tests_cant": "all 64-bit n", "anchors": ["atsc/src/utils/mod.rs:prev_power_of_two"]}
{"id": "C35", "title": "The plan partitions the cleaned data", "statement": "For every input the plan's chunks, concatenated in order, are exactly the input without NaN and infinities; no chunk is empty, none exceeds 131072 samples, every chunk except the last is a power of two, and there is one compressor per chunk.", "quantifier": "every input vector", "why_tests_cant": "all lengths", "anchors": ["atsc/src/optimizer/mod.rs:plan,get_chunks_sizes,get_execution,clean_data,set_compressor"]}
{"id": "C36", "title": "Cleaning keeps exactly the finite samples", "statement": "clean_data returns the finite samples of the input in order, and cleaning twice changes nothing.", "quantifier": "every input vector", "why_tests_cant": "all bit patterns", "anchors": ["atsc/src/optimizer/mod.rs:clean_data"]}
{"id": "C37", "title": "WavBrro returns the samples added, in order", "statement": "After any sequence of add_sample calls get_samples returns exactly the samples added in order, sample_count is their number (mod 2^32) and every chunk but the last has exactly 2048 samples and the last 1..2048.", "quantifier": "every sequence of add_sample calls", "why_tests_cant": "unbounded histories around chunk boundaries", "anchors": ["wavbrro/src/wavbrro.rs:add_sample,get_samples"]}
{"id": "C38", "title": "Bulk construction equals sample-by-sample construction", "statement": "Writing a slice with to_file_with_data builds the same structure, hence the same file, as adding its samples one by one and calling to_file.", "quantifier": "every slice", "why_tests_cant": "all lengths around multiples of 2048", "anchors": ["wavbrro/src/wavbrro.rs:from_slice,to_file_with_data,to_file"]}
{"id": "C39", "title": "WBRO files read back what was written", "statement": "For every vector of up to 2^28 samples, from_file on a file written by to_file_with_data or to_file returns exactly those samples bit for bit (longer vectors cannot be written: the writer panics); a file shorter than 12 bytes or without the WBRO marks is rejected.", "quantifier": "every vector, every byte string as file", "why_tests_cant": "arbitrary bytes / vectors; relative-pointer layout", "anchors": ["wavbrro/src/wavbrro.rs:from_file,to_file", "wavbrro/src/read.rs", "wavbrro/src/write.rs"]}
{"id": "C40", "title": "The index refuses points in the past and is unchanged by a refusal", "statement": "update_for_point(y) fails exactly when y is smaller than the current maximum timestamp and then leaves the index unchanged; otherwise it succeeds and the maximum becomes y.", "quantifier": "every index state and y", "why_tests_cant": "every state", "anchors": ["vsri/src/lib.rs:update_for_point"]}
{"id": "C41", "title": "Index extremes follow the history", "statement": "After any history of update attempts starting from an empty index, min() is the first accepted point, max() the last accepted point, and accepted points are non-decreasing.", "quantifier": "every history of update_for_point calls", "why_tests_cant": "unbounded histories", "anchors": ["vsri/src/lib.rs:update_for_point,min,max"]}
{"id": "C42", "title": "Index sample count equals the number of points of an increasing history", "statement": "After any strictly increasing history every point was accepted, get_sample_count() is the number of points, and the segments cover the sample numbers 0..count-1 contiguously without overlap; in a release build no such history panics. (Refuted when a timestamp repeats: the same time given k times is counted twice; C97 has the exact bounds.)", "quantifier": "every strictly increasing history of non-negative timestamps below 2^31, any length, both build profiles", "why_tests_cant": "unbounded histories", "anchors": ["vsri/src/lib.rs:update_for_point,create_fake_segment,generate_segment,get_sample_count"]}
{"id": "C43", "title": "Reconstructed timestamps are close to the originals", "statement": "After any strictly increasing history, get_all_timestamps returns one timestamp per point, never later than the real one and less than one sampling interval of its segment earlier.", "quantifier": "every strictly increasing history", "why_tests_cant": "unbounded histories with arbitrary gaps; exactness is false because of integer division in the fit test", "anchors": ["vsri/src/lib.rs:fits_segment,get_all_timestamps"]}
{"id": "C44", "title": "Where looking up an indexed timestamp returns its sample number", "statement": "In an index of strictly increasing seconds of a day, get_sample(t) for the i-th indexed timestamp is sample i exactly when its segment has several samples and the timestamp is not after the end of the segment's line; it is None exactly when the segment has several samples and the timestamp is after that end; it panics (division by zero) exactly when the segment has one sample. For any t: inside the span of a segment of several samples the lookup gives the sample whose slot contains t, outside all spans it is None. (That every indexed timestamp is found is refuted by these cases; beyond one day the arithmetic can wrap.)", "quantifier": "every strictly increasing history of seconds of a day, every recorded point, every t, both build profiles", "why_tests_cant": "unbounded histories and all times", "anchors": ["vsri/src/lib.rs:get_sample"]}
{"id": "C45", "title": "What time get_time gives for a sample number", "statement": "In an index of strictly increasing seconds of a day, get_time(i) for sample i of a segment is the recorded time of the sample plus the segment's rate times the number of its first sample; so it is the recorded time exactly in the first segment and in segments of one sample. Sample 0 is at the minimum, the count itself is given the maximum, larger and negative numbers have no time. (That get_time is always the recorded time is refuted for every later segment.)", "quantifier": "every strictly increasing history of seconds of a day, every sample number, both build profiles", "why_tests_cant": "unbounded histories", "anchors": ["vsri/src/lib.rs:get_time"]}
{"id": "C46", "title": "Regular sampling is indexed exactly", "statement": "For a history t0, t0+m, ..., t0+(n-1)m with m > 0, n >= 2, the index has one segment, get_all_timestamps returns the history, get_sample and get_time are mutually inverse on it.", "quantifier": "every t0 >= 0, m > 0, n >= 2", "why_tests_cant": "all n, m", "anchors": ["vsri/src/lib.rs"]}
{"id": "C47", "title": "What the neighbour lookups return", "statement": "For every strictly increasing history: in a gap get_previous_sample(t) is the last sample before t; from the first point to before the last get_next_sample(t) is the first sample of the last segment while t is not after its start and None afterwards, and get_previous_sample(t) is the last sample before the first segment that starts after t and None if no segment does; before the first point the next sample is 0 and there is no previous one; from the last point on there is no next one and the previous one is reported as the sample count. (That get_next_sample is the next sample is refuted in every gap but the last.)", "quantifier": "every strictly increasing history and every t, both build profiles", "why_tests_cant": "unbounded histories and all times", "anchors": ["vsri/src/lib.rs:get_next_sample,get_previous_sample"]}
{"id": "C48", "title": "When an interval is reported empty", "statement": "is_empty([a,b]) with a <= b never panics. In an index of one segment it is false exactly when [a,b] meets the time from the first to the last point; in an index of several segments it is false exactly when [a,b] meets a segment in more than the segment's last instant. So 'not empty' is never wrong. (That it is false whenever the interval meets a segment is refuted at the last instant of every segment of such an index.)", "quantifier": "every reachable index and interval", "why_tests_cant": "all indexes and intervals", "anchors": ["vsri/src/lib.rs:is_empty"]}
{"id": "C49", "title": "Index files read back what was flushed", "statement": "For every index, loading the file written by flush_to gives an index with the same min, max and segments.", "quantifier": "every index with i32 fields", "why_tests_cant": "all integers incl. negative and extremes, any number of segments", "anchors": ["vsri/src/lib.rs:flush_to,load"]}
{"id": "C50", "title": "Day indexes never overflow", "statement": "For every strictly increasing history of timestamps within one day (0..86399), no i32 computation performed by update_for_point, get_sample, get_all_timestamps or get_sample_count overflows.", "quantifier": "every such history", "why_tests_cant": "products of rate and sample number over all histories", "anchors": ["vsri/src/lib.rs:calculate_b,fits_segment"]}
{"id": "C51", "title": "Seconds of the day", "statement": "For every timestamp the calendar library can represent, day_elapsed_seconds(t) is in 0..86399 and congruent to t modulo 86400 (for any other timestamp it panics); for every timestamp start_day_ts is the greatest multiple of 86400 not exceeding it, and the two agree: t is the start of its day plus its seconds of the day.", "quantifier": "every timestamp", "why_tests_cant": "all i64 incl. negative", "anchors": ["vsri/src/lib.rs:day_elapsed_seconds,start_day_ts"]}
{"id": "C52", "title": "CSV reading is all-or-nothing and order preserving", "statement": "Reading a CSV returns one sample per record in file order, taken from the requested value column, or an error; the time column is checked before the value column, and any unparsable value makes the whole read fail.", "quantifier": "every table of records, every header", "why_tests_cant": "arbitrary tables", "anchors": ["atsc/src/csv.rs:read_samples_with_headers,read_samples"]}
{"id": "C53", "title": "Which files produced by compression are accepted for decompression", "statement": "The .bro file written for any input passes the reader's format check exactly when the input has a finite sample, and then it decompresses; for an input without one the 10-byte file is rejected as truncated. (So acceptance of every written file is refuted.)", "quantifier": "every input", "why_tests_cant": "all inputs, compressors, errors and levels", "anchors": ["atsc/src/utils/readers/bro_reader.rs", "atsc/src/main.rs:compress_data,process_single_file"]}
{"id": "C54", "title": "End to end: compress then uncompress", "statement": "For every input vector and every compressor choice, uncompressing the compressed bytes yields one sample per finite input sample, in order; with RLE on safe values the samples are equal, with noop they are the nearest integers.", "quantifier": "every input vector, compressor, error and level", "why_tests_cant": "whole pipeline over all inputs", "anchors": ["atsc/src/main.rs:compress_data,decompress_data"]}
{"id": "C55", "title": "What a directory run processes", "statement": "The regular files of a directory are processed in the order of the listing, each once (a failing one is tried a second time), until one fails or panics; that one ends the run with its error or panic, leaving the outputs of the files before it, and no later file is touched. A run that ends well has processed every regular file. (That a failing file does not prevent the others from being processed is refuted.)", "quantifier": "every directory listing and every pattern of failures", "why_tests_cant": "every listing and every pattern of failures and panics", "anchors": ["atsc/src/main.rs:process_directory"]}
{"id": "C56", "title": "Metric ingestion keeps values and index in step", "statement": "Appending CSV samples to a metric, when it returns (in a release build it always does, on timestamps the calendar library can represent), either fails at the first sample whose day time goes backwards, having ingested exactly the samples before it in both the data and the index, or has ingested all of them.", "quantifier": "every list of samples", "why_tests_cant": "arbitrary histories", "anchors": ["csv-compressor/src/metric.rs:append_samples,from_samples"]}
{"id": "C57", "title": "WAV conversion reassembles 64-bit values", "statement": "Joining the four 16-bit channel words of a sample gives back the f64 whose bits were split into them, and conversion to a .wbro file (of up to 2^28 samples, the most it can hold) drops exactly the NaN samples and keeps the others, in order.", "quantifier": "every 64-bit pattern, every sequence of samples", "why_tests_cant": "2^64 patterns", "anchors": ["tools/src/bin/wav2wbro.rs:join_u16_into_f64,read_metrics_from_wav,main"]}
{"id": "C58", "title": "Bounded compression honours the error bound", "statement": "For every finite chunk and every error bound e >= 0, the data decompressed from a bounded FFT, Polynomial or IDW frame has a MAPE not larger than e against the original chunk.", "quantifier": "every non-empty finite chunk, every error bound, whatever the interpolation or FFT library computes", "why_tests_cant": "the search loop is data dependent, gives up after a fixed number of rounds and compares truncated or NaN errors; tests sample a few series", "anchors": ["atsc/src/compressor/polynomial.rs:compress_bounded", "atsc/src/compressor/fft.rs:compress_bounded", "atsc/src/utils/error.rs:calculate_error"]}
{"id": "C59", "title": "A WBRO file whose writing was cut short is refused or read as a proper subsequence of the samples", "statement": "If writing a .wbro file is interrupted, or a write call stores fewer bytes than asked, then whatever the partial file is read as, if it is read at all, is a subsequence of the samples that were written, in order and unchanged, with at least one sample missing. (That it is always refused with an error is refuted: cut after two 0.0 samples it reads as an empty series, the bare header panics, and the writer does not notice a short write.)", "quantifier": "every series and every cut point of the file", "why_tests_cant": "every crash point of every file", "anchors": ["wavbrro/src/wavbrro.rs:from_file,to_file,to_file_with_data", "wavbrro/src/write.rs:write_wavbrro_file", "wavbrro/src/read.rs:read_wavbrro_file"]}
{"id": "C60", "title": "Reading a WBRO file never yields more samples than its size allows", "statement": "Whatever bytes a file holds, if from_file returns n samples then the file has at least 28 + 8 n bytes: no sample is invented or duplicated out of a small file.", "quantifier": "every byte string", "why_tests_cant": "adversarial file contents", "anchors": ["wavbrro/src/wavbrro.rs:from_file,from_bytes"]}
{"id": "C61", "title": "Processing a file changes only its own output file", "statement": "Compressing or uncompressing one file changes at most the one output path derived from the input path; if it returns an error no file changed; no other file is touched, the input included unless it is the output path.", "quantifier": "every file system, every path, every argument combination", "why_tests_cant": "arbitrary file systems", "anchors": ["atsc/src/main.rs:process_single_file", "wavbrro/src/wavbrro.rs:to_file_with_data"]}
{"id": "C62", "title": "Compress then uncompress through files", "statement": "Compressing a WBRO file always succeeds; uncompressing the .bro file it produced succeeds exactly when the original has a finite sample, and then writes a .wbro file that reads back as one sample per finite sample of the original, as the in-memory pipeline computes them (with RLE and magnitudes that are zero or in [2^-64, 2^63): the same values). (Without a finite sample the second run fails: refuted.)", "quantifier": "every WBRO file written by this library (up to 2^28 samples, the most it can write), every compressor, error, level", "why_tests_cant": "every file and every setting", "anchors": ["atsc/src/main.rs:process_single_file,compress_data,decompress_data", "wavbrro/src/wavbrro.rs"]}
{"id": "C63", "title": "What the csv-compressor round trip returns", "statement": "Compressing samples of one day in increasing seconds to a data file and an index file and reading both back gives one sample per finite value, with the values the codec returns, in order; the time of the i-th is the second the index records for sample i, plus its segment's rate times the number of the segment's first sample; the recorded second is never later than the one ingested. For regularly spaced seconds the times are the seconds of the day. (That the timestamps come back is refuted: the day and the milliseconds are always lost, irregular spacing changes the seconds, repeated times make reading panic, and non-finite values shift the times.)", "quantifier": "every list of samples of one day in strictly increasing seconds, every compressor, error, level, both build profiles", "why_tests_cant": "every list of samples", "anchors": ["csv-compressor/src/metric.rs:append_samples,flush_indexes,get_samples", "csv-compressor/src/main.rs"]}
{"id": "C64", "title": "What the FFT decoder computes", "statement": "Decompressing an FFT frame (also one not produced by the compressor) with distinct positions in the first half of the spectrum runs the inverse transform exactly once, at the transform length (the frame size, or the next 2^a 3^b above it from 128 samples on), on the spectrum made of the stored bins, their mirrored conjugates and zeros; sample i is the real part of its output at the i-th place after the padding, divided by the length, rounded to five decimals within the frame's limits.", "quantifier": "every frame, every frame size, whatever the FFT library computes", "why_tests_cant": "the spectrum is rebuilt in place with index arithmetic for every position and length", "anchors": ["atsc/src/compressor/fft.rs:get_mirrored_freqs,to_data,round,to_inv_complex"]}
{"id": "C65", "title": "FFT frames that keep every frequency are faithful", "statement": "If the spectrum is that of a real series and all its non-zero bins of the first half are stored, the decoder works on exactly the encoder's spectrum; so when the library's transforms are inverse to each other up to eps, every sample comes back within eps, half a unit of the fifth decimal, and the rounding to single precision. This is the case for fft_set with at least n/2+1 frequencies below 128 samples, and for bounded compression of at most 49 samples whenever it does not meet the bound earlier.", "quantifier": "every finite chunk, every eps, every library satisfying the stated laws", "why_tests_cant": "an identity between whole spectra", "anchors": ["atsc/src/compressor/fft.rs:get_mirrored_freqs,fft_trim,compress_hinted,compress_bounded"]}
{"id": "C66", "title": "At which length the plain FFT path decodes", "statement": "For every chunk of fewer than 128 samples, decompressing what plain (not error-bounded) FFT compression produced inverts a spectrum of the same length as the transform whose bins were stored; from 128 samples on it never does: it inverts a longer spectrum. (So the expectation that the lengths always agree is refuted.)", "quantifier": "every chunk of up to 131071 samples that is not constant in single precision", "why_tests_cant": "ranges over all chunks and lengths", "anchors": ["atsc/src/compressor/fft.rs:compress,compress_hinted,to_data"]}
{"id": "C67", "title": "The error metrics compute their textbook formulas", "statement": "For finite moderate samples, error_mse, error_nmsqe, error_mae, error_mape and error_smape return a finite number within (a small multiple of the sample count) units of double rounding of the exact mean squared error, squared error over energy, mean absolute error, mean absolute percentage error and total absolute error over total magnitude over count.", "quantifier": "every pair of equally long series of up to 2^47 finite samples of magnitude at most 2^400 (for MAPE also no sample below 2^-400, for NMSE/SMAPE a non-zero denominator)", "why_tests_cant": "accumulated rounding over arbitrarily long series", "anchors": ["atsc/src/utils/error.rs:error_mse,error_nmsqe,error_mae,error_mape,error_smape"]}
{"id": "C68", "title": "SMAPE is between 0 and 1, and a total loss of n samples is reported as 1/n", "statement": "error_smape of two finite series returns NaN or a number between 0 and 1. A reconstruction that loses everything (all zeros) is reported as 1 for a single sample and as nearly 1/n for n samples, so below 0.51 for two or more. (That a total loss is always reported as 1 is refuted.)", "quantifier": "every pair of equally long finite series up to 2^53 samples; for total loss, magnitudes that do not overflow the sums", "why_tests_cant": "all series; float rounding and overflow", "anchors": ["atsc/src/utils/error.rs:error_smape"]}
{"id": "C69", "title": "The file holds what was requested", "statement": "The compressor, error and level given on the command line are the ones used: the .bro file holds one frame per chunk, in order, each counting its chunk's samples, tagged with the requested compressor (for auto: Constant, FFT, Polynomial or RLE), holding that compressor's payload, made with a bound within 2^-25 of the requested percentage.", "quantifier": "every data set, every compressor/error/level, every chunk", "why_tests_cant": "the path from arguments to bytes passes through chunking, per-chunk dispatch, the search for the best compressor and serialisation; the claim is about all of them composed", "anchors": ["atsc/src/main.rs:compress_data", "atsc/src/data.rs:compress_chunk_with,compress_chunk_bounded_with", "atsc/src/frame/mod.rs:compress_bounded,compress_best", "atsc/src/compressor/mod.rs"]}
{"id": "C70", "title": "An index file whose writing was cut short is refused or read as a beginning of the index", "statement": "If only a beginning of a .vsri file reached the disk, loading it panics or gives an index whose timestamps are the first ones of the index that was written, whose sample count is not larger and whose lookups find nothing but what the written index finds. (That it is always refused is refuted: cut at the end of a line, or within the last number, it loads as a shorter index.)", "quantifier": "every index built from strictly increasing timestamps, every cut point of its file", "why_tests_cant": "every crash point of every file", "anchors": ["vsri/src/lib.rs:flush_to,load"]}
{"id": "C71", "title": "A compressed file that was cut short never uncompresses", "statement": "If only a proper beginning of a .bro file reached the disk, uncompressing it fails (error or panic) and changes no file; so a .bro file that uncompresses is whole.", "quantifier": "every .bro file atsc writes and every cut point; for any other file that uncompresses, every cut point either fails or gives the same samples", "why_tests_cant": "every crash point of every file", "anchors": ["atsc/src/main.rs:process_single_file,decompress_data", "atsc/src/utils/readers/bro_reader.rs", "atsc/src/data.rs:from_bytes"]}
{"id": "C72", "title": "csv-compressor's effects on files", "statement": "A run of csv-compressor changes no file but the outputs named by its options, also when it panics; an unreadable or refused CSV file leaves no trace; compressing samples of one day in increasing seconds, at least one of them finite, with --output-vsri and uncompressing succeed and write a CSV file with one sample per finite value, with the values the codec returns and the times of C63. (Refuted: that the original is kept - the default output names replace it; that the index is the one belonging to the data - any .vsri beside it is used; that uncompressing writes all its outputs or none - a short index leaves a .wbro and no CSV; that it works without --output-vsri.)", "quantifier": "every file system, options, CSV contents", "why_tests_cant": "every file system state, options and contents", "anchors": ["csv-compressor/src/main.rs:process_args,main", "csv-compressor/src/metric.rs:flush_indexes,get_samples,flush_bro,flush_wavbrro"]}
{"id": "C73", "title": "Compressed size is bounded by the chunk", "statement": "The payload of a compressed chunk of n samples is at most 10 bytes with Constant, 9 n + 6 with Noop, 14 bytes per run of equal samples + 7 with RLE, 8 n + 24 with Polynomial or IDW, 11 (n/10 + 25) + 14 with FFT, and with Auto at a level that looks at the whole chunk never more than RLE's bound; a .bro file is never more than 14 bytes per finite sample plus a small amount per frame. (That it is never larger than the raw samples is refuted, for Noop at every length.)", "quantifier": "every chunk, call, compressor, error and level, whatever the FFT and interpolation libraries compute", "why_tests_cant": "worst-case sizes over all inputs", "anchors": ["atsc/src/compressor/noop.rs", "atsc/src/compressor/rle.rs", "atsc/src/compressor/constant.rs", "atsc/src/compressor/polynomial.rs", "atsc/src/compressor/fft.rs", "atsc/src/frame/mod.rs:compress_best", "atsc/src/data.rs:to_bytes"]}
{"id": "C74", "title": "How many samples are returned for untrusted bytes", "statement": "Whatever bytes are uncompressed, also ones not written by the compressor, if it succeeds every frame yields: with Noop the number of samples its payload holds, whatever the recorded count; with any other compressor the recorded count. So without Noop frames the number of samples is the sum of the recorded counts, and with them the sum of what the frames announce. The number is not limited by the size of the bytes: a file of 29 bytes can yield any number below 2^64. (That the recorded count is always the number returned is refuted for Noop.)", "quantifier": "every byte string", "why_tests_cant": "every byte string, not only the compressor's output", "anchors": ["atsc/src/frame/mod.rs:decompress", "atsc/src/data.rs:from_bytes,decompress", "atsc/src/compressor/mod.rs:decompress"]}
{"id": "C75", "title": "Compressing again what was uncompressed", "statement": "Uncompressing a file and compressing the result with the same compressor: with Noop the second file is the first, byte for byte; with RLE the samples it holds have the same values. (That RLE gives the same bytes is refuted by -0.0.)", "quantifier": "every data set, call, level", "why_tests_cant": "a statement about compositions of three runs over all data sets", "anchors": ["atsc/src/compressor/noop.rs", "atsc/src/compressor/rle.rs", "atsc/src/main.rs:compress_data,decompress_data"]}
{"id": "C76", "title": "What get_this_or_previous and get_this_or_next return", "statement": "For an index of strictly increasing seconds of a day: get_this_or_previous(t) is None before the first point; the last sample whose timestamp (as get_all_timestamps reports it) is not after t from there up to the last reported timestamp (at that timestamp a division by zero if the sample is alone in its segment); None between that and the real last point; and, after the last reported timestamp, from the real last point on the number of samples, which is one past the last sample. get_this_or_next(t) is, within a segment, the sample whose slot holds t (a division by zero for a segment of one sample); elsewhere sample 0 before the first point, the first sample of the last segment up to its start, and None afterwards; so it is the first sample not before t at reported timestamps and before the first point. (The expectation 'last not after t' / 'first not before t' at every t is refuted, for every such history.)", "quantifier": "every strictly increasing history of seconds of a day, every time t, both build profiles", "why_tests_cant": "unbounded histories and all times", "anchors": ["vsri/src/lib.rs:get_this_or_previous,get_this_or_next,get_previous_sample,get_next_sample,get_sample"]}
{"id": "C77", "title": "Which metrics are symmetric, and what an error of zero says", "statement": "Exchanging the two series does not change error_mse, error_mae or error_smape, for every pair of series. A reported error of 0 bounds the differences: with MAE every difference, and with MSE every squared difference, is at most n 2^-1069; with SMAPE every difference is at most n 2^-1069 of the total of the magnitudes; with NMSE every squared difference is at most 2^-499 of the energy of the original. (Refuted: symmetry of MAPE and NMSE, which divide by the original; and 'zero means equal' for MAE, MSE, NMSE and SMAPE, by differences that underflow.)", "quantifier": "every pair of equally long finite series whose sums do not overflow (symmetry: every pair of series)", "why_tests_cant": "all series; involves float underflow", "anchors": ["atsc/src/utils/error.rs"]}
{"id": "C78", "title": "A computed error of 0 means exact reproduction", "statement": "calculate_error, the error the compressors compute, is 0 exactly when every sample is reproduced with its value and none of them is zero; no rounding or underflow reports a difference as 0.", "quantifier": "every finite original of up to 2^53 samples, every reconstruction of the same length (NaN and infinities included)", "why_tests_cant": "all pairs of doubles, including neighbours differing in the last bit and subnormals", "anchors": ["atsc/src/utils/error.rs:calculate_error,error_mape"]}
{"id": "C79", "title": "When a larger allowed error cannot make the result larger", "statement": "Compressing the same chunk with the same bounded compressor and a larger allowed error never stores more frequencies or samples; with FFT the payload is never longer, with Polynomial and IDW it is never longer when the samples are stored in a fixed width (one byte or doubles), and the other compressors ignore the error. With auto the payload is never longer when moreover every candidate's result for the larger bound is within it. (Refuted: Polynomial payloads of 16-bit integers can grow; auto's payload can grow, from 46 to 180 bytes for 7% instead of 6%.)", "quantifier": "every chunk, every pair of error bounds 0 <= e <= e' <= 10^6, whatever the FFT and interpolation libraries compute", "why_tests_cant": "a relation between two runs of the search, over all chunks and bounds. False in bytes for Polynomial/IDW on 16- and 32-bit integers (fewer but wider numbers), and for auto when a search stops just above the larger bound", "anchors": ["atsc/src/compressor/fft.rs:compress_bounded", "atsc/src/compressor/polynomial.rs:compress_bounded"]}
{"id": "C80", "title": "The frame layout follows a fixed rule", "statement": "A series of n finite samples is stored as floor(n / 131072) frames of 131072 samples, then one frame for each of 65536, 32768, ..., 512 that occurs in the binary expansion of n, in that order, then one frame with the n mod 512 samples left, if any; so there are at most n / 131072 + 9 frames, and the header's frame count is right below 247 * 131072 samples.", "quantifier": "every input vector and every argument for which compression succeeds", "why_tests_cant": "all lengths up to memory size; the frame counter limit lies beyond 32 million samples", "anchors": ["atsc/src/optimizer/mod.rs:get_chunks_sizes,plan,get_execution", "atsc/src/utils/mod.rs:prev_power_of_two", "atsc/src/data.rs", "atsc/src/header.rs"]}
{"id": "C81", "title": "Changes stay inside their frame", "statement": "Changing samples inside one frame changes the decoded series nowhere outside that frame; appending samples changes none of the decoded samples of the full 131072-sample frames at the start.", "quantifier": "every pair of input vectors, every compressor, error and level", "why_tests_cant": "a relation between two whole-pipeline runs, over all inputs", "anchors": ["atsc/src/main.rs:compress_data,decompress_data", "atsc/src/data.rs", "atsc/src/optimizer/mod.rs"]}
{"id": "C82", "title": "Samples that are not finite leave no trace", "statement": "Compressing a series gives exactly the bytes of compressing the series with its NaN and infinite samples removed.", "quantifier": "every input vector, every compressor, error and level", "why_tests_cant": "all positions and numbers of NaN and infinities; the frame boundaries move with them", "anchors": ["atsc/src/optimizer/mod.rs:clean_data,plan", "atsc/src/main.rs:compress_data"]}
{"id": "C83", "title": "Indexing the reported timestamps gives the index back", "statement": "The timestamps get_all_timestamps reports are strictly increasing, and a new index built from them has the same segments and the same minimum as the index that reported them, with the last reported timestamp as maximum; so it reports the same timestamps again.", "quantifier": "every strictly increasing history of i32 timestamps the index accepted, in debug and release builds", "why_tests_cant": "a relation between two histories of any length; includes late points and wrapped products", "anchors": ["vsri/src/lib.rs:update_for_point,get_all_timestamps,fits_segment,generate_segment,create_fake_segment"]}
{"id": "C84", "title": "Which index lookups keep the order of their arguments", "statement": "Looking up a later time never returns an earlier sample with get_sample and with get_this_or_previous, at whatever pair of times both answer. (Refuted for get_this_or_next, and for get_time: a later sample can have an earlier time.)", "quantifier": "every strictly increasing history of a day and every pair of arguments", "why_tests_cant": "all pairs of times over unbounded histories", "anchors": ["vsri/src/lib.rs:get_sample,get_this_or_previous,get_this_or_next,get_time"]}
{"id": "C85", "title": "Work can be stopped, saved and continued at any point", "statement": "Saving and loading in the middle changes nothing that follows: a compressed stream re-read from its bytes and extended equals the stream built in one go; an index flushed, loaded and updated further gives the same answers and the same index as never stopping; a metric can be ingested in batches, and rebuilt from its data and index files in between, with the same result as ingesting everything at once.", "quantifier": "every sequence of chunk compressions, every history of i32 points (in any order, repeated and refused ones included), every list of samples up to 2^28, every stopping point", "why_tests_cant": "all histories and all stopping points", "anchors": ["atsc/src/data.rs:CompressedStream", "vsri/src/lib.rs:flush_to,load,update_for_point", "csv-compressor/src/metric.rs:append_samples,from_samples,flush_wavbrro,flush_indexes", "wavbrro/src/wavbrro.rs"]}
{"id": "C86", "title": "When an interrupted run can be run again", "statement": "If a run on one file, whose output is another file, was killed at any point, running it again on what it left behind ends as the uninterrupted run would have, with the same files. (Refuted when the input is its own output, and for directories: the partial output becomes an input.)", "quantifier": "every input file other than its output, every argument, every content the crash may have left in the output file", "why_tests_cant": "every crash point", "anchors": ["atsc/src/main.rs:process_single_file,process_directory", "wavbrro/src/write.rs:write_wavbrro_file"]}
{"id": "C87", "title": "Which directory runs can be repeated", "statement": "Uncompressing a directory a second time, over the same listing with the files the first run created anywhere in it, succeeds and changes nothing. (Refuted for compression: the first .bro file in a listing ends the run with an error, and nothing after it is processed.)", "quantifier": "every directory content and listing order, every argument", "why_tests_cant": "every directory content and listing order", "anchors": ["atsc/src/main.rs:process_directory,process_single_file", "wavbrro/src/read.rs:is_wavbrro_file"]}
{"id": "C88", "title": "What the exit status tells", "statement": "For a single file status 0 means exactly: it was turned into its output, the only thing that changed, or (only with -u) it is not a BRRO file and nothing changed; status 1 means exactly that the input was recognised as unreadable; any other outcome is 101, a panic; unless it is 0 nothing changed. For a directory whose files have different outputs, none of them an input, status 0 means exactly that each file was turned into its output or passed over so. A path that is neither or missing gives 1 and changes nothing. (That 0 means every file was turned into its output is refuted by -u on other files and by inputs sharing an output.)", "quantifier": "every file system, input path (file, directory, other, missing) and argument", "why_tests_cant": "every file system, path and argument", "anchors": ["atsc/src/main.rs:main,process_args,process_directory,process_single_file", "atsc/src/utils/readers/bro_reader.rs"]}
{"id": "C89", "title": "The default settings honour the requested error", "statement": "With the default compressor (auto) and level (0), uncompressing gives back, chunk by chunk, the same values, the same values to five decimals, or (only for chunks without zeros) finite values whose mean absolute percentage error is at most the percentage given with --error.", "quantifier": "every input vector of finite samples that are zero or of magnitude in [2^-64, 2^63), every --error from 0 to 50, whatever the FFT and interpolation libraries compute", "why_tests_cant": "all inputs and all results of the libraries. False by a factor of up to 32/27 when FFT is chosen for chunks of 128 samples or more (the error is measured on the padded chunk), false for levels above 0 and for larger values", "anchors": ["atsc/src/frame/mod.rs:compress_best", "atsc/src/compressor/fft.rs:compress_bounded", "atsc/src/compressor/polynomial.rs:compress_bounded", "atsc/src/utils/error.rs:calculate_error", "atsc/src/main.rs:compress_data"]}
{"id": "C90", "title": "Chunk statistics: average, fractional flag and narrowest type", "statement": "The reported mean is the average of the samples up to float rounding (at most (2n+2)*2^-53 times the average magnitude), the fractional flag is set exactly when some sample is not a whole number, and the recommended type is the narrowest of u8, i16, i32, f64 that holds every sample.", "quantifier": "every non-empty chunk of finite samples that are zero or of magnitude in [2^-64, 2^63) (mean: magnitude up to 2^400), of any length up to 2^50", "why_tests_cant": "all chunks; rounding accumulates with the length and the bit tricks have corner cases at every exponent", "anchors": ["atsc/src/optimizer/utils.rs:DataStats::new,DataStats::bitdepth,split_n"]}
{"id": "C91", "title": "The index stays small", "statement": "A day of samples taken regularly except for k - 1 interruptions, shifts or changes of rate is indexed with at most k segments, in a file of at most 12 + 24 k bytes however many samples there are; n timestamps in any increasing order never take more than (n + 1) / 2 segments, and the file never more than 22 bytes and 44 for each segment.", "quantifier": "every list of regular stretches that makes up a strictly increasing day, of any number and length, and every strictly increasing history of i32 timestamps; debug and release builds", "why_tests_cant": "all histories: how stretches meet, whether a point happens to fit the previous segment and where overflow could occur depend on the whole history", "anchors": ["vsri/src/lib.rs:update_for_point,fits_segment,generate_segment,create_fake_segment,flush_to", "vsri/README.md"]}
{"id": "C92", "title": "The layout of a WBRO file", "statement": "A .wbro file of n samples starts with the text WBRO0000WBRO; sample i is the little-endian double at offset 12 + 8 i; one 8-byte entry per block of 2048 samples records the size of each block; the last 16 bytes record the number of blocks, the number of samples and the bit depth 5; so its size is 28 + 8 n + 8 ceil(n / 2048) bytes and it determines the samples. The reader ignores bytes 4 to 7. (The documentation's claim that these bytes are the number of samples is refuted for every file.)", "quantifier": "every vector of up to 2^28 samples, NaN and infinities included", "why_tests_cant": "all lengths and values", "anchors": ["wavbrro/README.md", "wavbrro/src/write.rs:write_wavbrro_file", "wavbrro/src/wavbrro.rs:to_file_with_data,to_bytes", "wavbrro/src/read.rs:is_wavbrro_file"]}
{"id": "C93", "title": "Compressing a CSV file compresses the column the user named", "statement": "atsc --csv --fields=T,V on a table whose header has the columns T and V compresses exactly the parsed fields of the first column named V, in file order, whatever the other columns hold, wherever the column stands and however the table is written; --no-header compresses the first field of every line; the result is the file a WBRO input with the same samples gives. (For files that are not such tables the program ends with a panic: --fields without a comma, a record of another length or not in UTF-8.)", "quantifier": "every table of text (any number of rows and columns, any field contents, rows as long as the header), every way to write it as CSV text, every column name without a comma, every compressor and error", "why_tests_cant": "all tables and all spellings of them", "anchors": ["atsc/src/main.rs:process_single_file", "atsc/src/csv.rs:read_samples,read_samples_with_headers,open_csv_reader"]}
{"id": "C94", "title": "CSV text is read as its rows", "statement": "A table written as CSV (fields bare or quoted with doubled quotes, lines ended by LF, CR or CRLF, last line end optional, blank lines anywhere, a byte order mark or none) is read as exactly its rows, and no text stands for two tables; every table whose rows have at least one field can be written. (A blank line is never a row: that an empty bare cell of a one-column file is read as a row is refuted.)", "quantifier": "every table and every way to write it", "why_tests_cant": "all texts, including quotes, commas and line ends inside fields", "anchors": ["atsc/src/csv.rs:open_csv_reader", "csv-compressor/src/csv.rs:read_samples_from_csv_file"]}
{"id": "C95", "title": "csv-compressor reads the CSV files it writes", "statement": "Samples written by write_samples_to_csv_file are read back by read_samples_from_csv_file unchanged and in order; so the CSV file that results from compressing and uncompressing is accepted as input again.", "quantifier": "every list of samples with 64-bit timestamps and any values (all NaNs become the one quiet NaN)", "why_tests_cant": "all lists and values", "anchors": ["csv-compressor/src/csv.rs:read_samples_from_csv_file,write_samples_to_csv_file", "csv-compressor/src/main.rs:process_args"]}
{"id": "C96", "title": "wav2wbro converts the file and touches nothing else", "statement": "On a file that starts like a WAV file and whose name ends in wav, wav2wbro writes exactly one file, named the same with wbro at the end, that reads back as the input's values that are not NaN, in order; every other file is unchanged. It panics afterwards only when --validate was given and a value is NaN. A missing file, a file that does not start like WAV, and a name that does not end in wav are refused with no change. With one to four channels each group of samples gives one value. (Losslessness fails: a file with a WAV start that the WAV reader rejects becomes an empty series without any complaint.)", "quantifier": "every directory content, file name, flag, behaviour of the WAV reader, and up to 2^28 values", "why_tests_cant": "all files and all behaviours of the WAV reader", "anchors": ["tools/src/bin/wav2wbro.rs:main,is_wav_file,read_metrics_from_wav,join_u16_into_f64"]}
{"id": "C97", "title": "Repeated timestamps in the index", "statement": "Points given in time order are never refused, also when timestamps repeat. The index then has at least as many samples as there are different timestamps, at most twice as many, and at most as many as there are points; it numbers them contiguously and reports that many timestamps, in time order, all between the first and the last point; every point lies in the span of one of its segments. (That every point is counted is false: a timestamp given three times and followed by any point, or given four times, loses samples; and a debug build may panic with an i32 overflow, see C50.)", "quantifier": "every non-decreasing history of timestamps below 2^31, of any length below 2^31, both build profiles", "why_tests_cant": "all histories with any pattern of repetitions", "anchors": ["vsri/src/lib.rs:update_for_point,generate_segment,fits_segment,create_fake_segment,get_sample_count,get_all_timestamps"]}
{"id": "C98", "title": "Where options act", "statement": "The selection level (-c) has no effect unless the compressor is auto, and none on series of fewer than 128 finite samples; the error (-e) has no effect with noop, constant and rle; -u ignores every other option; --fields and --no-header have no effect without --csv, and --fields none with --no-header; csv-compressor's --output-csv has no effect at all. No effect means the same files and the same exit status. (Two documented effects are refuted: that --output-csv enables the CSV output, and that -e 50 applies a median filter.)", "quantifier": "every input, directory, option value and external library behaviour, both build profiles", "why_tests_cant": "all inputs and option combinations", "anchors": ["atsc/src/main.rs:Args,process_single_file,compress_data", "atsc/src/frame/mod.rs:compress_best", "README.md", "docs/usage.md"]}
{"id": "C99", "title": "The size recorded in a frame", "statement": "Every frame records the size 41, whatever it holds; its real size in the file is two bytes, the variable-length counts of samples and payload bytes, and the payload; uncompressing does not depend on the recorded size. (That a frame records its own size is refuted for every payload of at most 20 or at least 38 bytes.)", "quantifier": "every chunk, compressor, bound and level, both build profiles", "why_tests_cant": "all chunks", "anchors": ["atsc/src/frame/mod.rs:CompressorFrame,close", "atsc/src/data.rs:decompress"]}
{"id": "C100", "title": "What failing file operations do", "statement": "Whatever file operations fail during a run (a file cannot be opened or read to the end, an output cannot be created, the disk is full after any number of bytes, a directory cannot be listed to the end): no file but the outputs changes; a run of atsc that ends with status 0 left exactly the files an undisturbed run leaves, also when a directory entry succeeded only at the second attempt, provided (with -u) that a positioned write stores all it is given or fails; a failed run on one file left nothing changed or a proper beginning of the new output, which, when compressing, is never uncompressed. csv-compressor compressing: the same; uncompressing: all files but the CSV output are those of the undisturbed run, and the CSV output lacks at most its last 8192 bytes. (Refuted: that short writes of .wbro files are noticed, that the previous output survives a failed run, and that csv-compressor notices that its CSV output is incomplete.)", "quantifier": "every file system content, option, listing and every sequence of failures at every point, for atsc and csv-compressor", "why_tests_cant": "all combinations of failure points; disk-full conditions are not reproduced by tests. False for -u when write_at writes less than it is given, for the previous output (destroyed), and for the CSV file of csv-compressor -u (never flushed)", "anchors": ["atsc/src/main.rs:main,process_args,process_directory,process_single_file", "wavbrro/src/write.rs:write_wavbrro_file", "csv-compressor/src/main.rs:process_args", "csv-compressor/src/csv.rs:write_samples_to_csv_file", "vsri/src/lib.rs:flush_to"]}
{"id": "C101", "title": "What in a compressed file does not matter", "statement": "The version (0 or 1) and frame count of the header, the size recorded with each frame and the compressor byte at the start of a Noop, Constant, RLE or FFT payload have no influence on what a file uncompresses to (samples or failure). (That a change of any other byte is noticed is refuted: one changed byte turns 5,5,5 into 6,6,6 without complaint; the format has no checksum.)", "quantifier": "every compressed file, every change of the named fields, every behaviour of the external libraries", "why_tests_cant": "all damages of all files; false in general: there is no checksum, so one changed byte of a payload yields other samples without a complaint", "anchors": ["atsc/src/header.rs:CompressorHeader::from_bytes", "atsc/src/data.rs:CompressedStream::from_bytes,decompress", "atsc/src/frame/mod.rs:CompressorFrame::decompress", "atsc/src/compressor"]}
{"id": "C102", "title": "The entry points of a compressor agree", "statement": "For every data slice, allowed error and compressor, compress_bounded returns exactly the bytes of get_compress_bounded_results, fft_allowed_error returns what the FFT compressor returns, polynomial_allowed_error what Polynomial and Idw return, unbounded FFT is fft_set with max(3, n/100) frequencies, and Noop, Constant and RLE give the same bytes with and without a bound; each pair also fails on the same inputs.", "quantifier": "all data slices, allowed errors, compressors and external transforms", "why_tests_cant": "the functions compute minimum, maximum and statistics by separate code; a test compares them on a few slices", "anchors": ["atsc/src/compressor/mod.rs: compress, compress_bounded, get_compress_bounded_results", "atsc/src/compressor/fft.rs: fft, fft_set, fft_allowed_error, fft_compressor", "atsc/src/compressor/polynomial.rs: polynomial_allowed_error"]}
{"id": "C103", "title": "Fixed-point conversion of samples", "statement": "f64_to_u64(x, p) panics exactly for p > 6; for a sample of at least 0 with x*10^p up to 2^53 the result is one of the two integers next to x*10^p (the exact value when that is an integer); beyond that it is within one unit plus one rounding, values that do not fit give the largest u64, negative samples and NaN give 0, and the conversion keeps the order of its arguments.", "quantifier": "all f64 values and precisions", "why_tests_cant": "the claim ranges over every double and includes rounding of the product", "anchors": ["atsc/src/utils/mod.rs: f64_to_u64"]}
{"id": "C104", "title": "The command line means what it says", "statement": "Arguments may be given in any order and in any usual spelling (--name value, --name=value, -n value, -nvalue, -n=value, joined flags, the input after --); a command line whose arguments are written with their names is accepted exactly when none is repeated, every value is acceptable and an input is given, and then every setting is the one given or its documented default (auto, 3 percent, level 0, fields time,value; csv-compressor 5 percent). No command line whatsoever starts a run with an error above 50 or a level above 6; refused command lines and help leave every file untouched, and status 2 means a usage error.", "quantifier": "all argument lists, files and directory contents", "why_tests_cant": "the number of argument lists is unbounded", "anchors": ["atsc/src/main.rs: Args, CompressorType, main", "csv-compressor/src/main.rs: Args, CompressorType, main", "tools/src/bin/wav2wbro.rs: Args, main"]}
{"id": "C105", "title": "Which files are VSRI index files", "statement": "Vsri::load returns an index exactly for UTF-8 texts whose first two lines are the smallest and largest timestamp and whose other lines have four comma-separated fields (rate, first sample, first time, count), all decimal 32-bit integers with optional sign, leading zeros and white space around them; lines end with LF or CRLF, the last one may lack its end, missing extremes are zero. It returns that index and no other. Every other text makes it panic; only files that are not UTF-8 can give an error instead. get_sample_location answers None for times outside the extremes of the file, whatever its segments.", "quantifier": "all file contents", "why_tests_cant": "the number of file contents is unbounded; tests can only load a few files", "anchors": ["vsri/src/lib.rs: load, get_sample_location"]}
{"id": "C106", "title": "Numbers in CSV files are read as the nearest double and written so that they read back", "statement": "A field of a CSV file is accepted as a value exactly when it is a decimal notation (digits, optional point, optional exponent, optional sign) or a word for infinity or NaN; it is read as the double nearest to the number, ties to even, infinity from half a step above the largest double on. A double is written as the shortest decimal that reads back as it, the nearest such one, with at most 17 digits and without superfluous zeros; timestamps are decimal or 0x-hexadecimal 64-bit integers. So a column of a table is compressed as the doubles nearest to its numbers.", "quantifier": "every text, every number of any length and exponent, every double, every 64-bit timestamp, every table", "why_tests_cant": "all texts and all 2^64 doubles; nearest and shortest quantify over all other doubles and decimals", "anchors": ["atsc/src/csv.rs:read_samples,read_samples_with_headers", "csv-compressor/src/csv.rs:read_samples_from_csv_file,write_samples_to_csv_file"]}
{"id": "C107", "title": "Two commands in a row: compress, then uncompress", "statement": "Any accepted command line that compresses a file, followed by any accepted command line that uncompresses the .bro file beside it (the options need not match), ends twice with status 0; the first changes only the .bro file, the second only the .wbro file, which reads back as the samples of the compressed file, one for each finite sample of the input, and with --compressor rle as the same values. [Not so when the input has no finite sample: the second command ends with status 1 and writes nothing.]", "quantifier": "every two command lines that are accepted, every file system, every WBRO or CSV input with at most 2^28 samples, whatever the FFT and interpolation libraries compute", "why_tests_cant": "all command lines, all inputs and all contents of the other files", "anchors": ["atsc/src/main.rs:main,process_args,process_single_file,Args", "atsc/src/utils/readers/bro_reader.rs:read_file", "wavbrro/src/wavbrro.rs:to_file_with_data,from_file"]}
{"id": "C108", "title": "wav2wbro when file operations fail", "statement": "Whatever file operations fail in a run of wav2wbro (opening or reading the input, creating the output, a full disk): no file but the output changes; the program ends with success or a panic; after a panic everything is as it was, or the output holds a beginning of the file being written, or (only with --validate) the finished file; success means the run went as an undisturbed one, provided no write is short without an error. [Not so when the WAV library cannot open the file that was just opened for its header: the output is then replaced by a file without samples and the status is 0.]", "quantifier": "every file system, every file name, every content and whatever the WAV library makes of it, every combination of failures and every point at which reading or writing breaks off", "why_tests_cant": "every crash point of the disk; tests do not inject failures", "anchors": ["tools/src/bin/wav2wbro.rs:main,is_wav_file,read_metrics_from_wav", "wavbrro/src/write.rs:write_wavbrro_file"]}
{"id": "C109", "title": "--verbose shows exactly the samples, and changes nothing else", "statement": "With `--verbose` atsc prints, for a file it compresses, one line `Input=[a, b, ..]` with every sample it read, and for a BRRO file it uncompresses one line `Output=[a, b, ..]` with every sample the file stands for; a file without samples to show (unreadable, passed over) prints nothing, and a successful directory run prints the lines of its regular files in order. Every entry read as a decimal number is the sample bit for bit, the sign of zero included (all NaNs are shown as NaN), it is the shortest decimal that is, never longer than 17 digits, so two lists print alike exactly if they are the same samples; after a successful `-u --verbose` the .wbro file reads as exactly the samples of the line. Without the flag nothing is printed; and while standard output can be written, the flag changes neither the files nor the exit status. [If standard output breaks off within the line (a closed pipe) the program ends with status 101 and does not write the output file.]", "quantifier": "all file contents, directory listings, options, sample lists and points at which standard output may break off", "why_tests_cant": "the numbers shown are found by a search over powers of ten whose tie cases are rare; that no two sample lists print alike quantifies over pairs of lists", "anchors": ["atsc/src/main.rs:process_single_file", "atsc/src/main.rs:process_directory", "atsc/src/main.rs:main"]}
{"id": "C110", "title": "Where outputs go", "statement": "The output of atsc for a file is in the same directory and is called as the file with everything from the last dot on (unless that dot is the first character) replaced by .bro or .wbro; a name without such a dot gets the extension appended. It is the input itself exactly if the input has that extension already, and two files share an output exactly if they are in one directory and differ at most in the extension. A run on a directory writes only into that directory itself, only such files, and a successful one has written all of them (if no two collide). csv-compressor derives its file names in the same way from --output, or from the input without one. [One might expect --output out/ to write into the directory out: it writes out.bro beside it, and --output run.1 writes run.bro.]", "quantifier": "all path texts (absolute, relative, with any dots and slashes), extensions, file contents, directory listings, arguments and command lines, environments", "why_tests_cant": "paths and directory listings are unbounded; the cases (dots at the front, several dots, trailing slashes, `..`, shared stems) combine freely", "anchors": ["atsc/src/main.rs: process_single_file, process_directory", "csv-compressor/src/main.rs: process_args"]}
{"id": "C111", "title": "From a WAV file to samples in three commands", "statement": "wav2wbro dir/x.wav, then atsc (with any options, not --csv) dir/x.wbro, then atsc -u dir/x.bro: all three end with exit status 0 and the last leaves dir/x.wbro with as many samples as the WAV file had finite values (with --compressor rle their very values, within the range of C09), dir/x.bro with the compressed values, dir/x.wav and every other file as they were. [One might expect a WAV file that cannot be read, or holds no finite value, to stop the first command: the first two end with status 0 and only the third with 1.]", "quantifier": "all WAV contents and results of the WAV library of up to 2^28 values (in a debug build: few enough for 255 frames), at least one of them finite (with --validate: none NaN), disks, directories and stems, command lines of the three programs, builds", "why_tests_cant": "three programs meet through files whose names each derives in its own way; contents, names and command lines are unbounded", "anchors": ["tools/src/bin/wav2wbro.rs: main", "atsc/src/main.rs: process_single_file, compress_data, decompress_data"]}
{"id": "C112", "title": "Runs at the same time", "statement": "Any number of runs of atsc on files at the same time, their file operations (opening, reading in pieces, creating, writing in pieces, closing) coming in any order, no run writing a file that another reads or writes: each run ends as it would have alone and leaves in its output file what it would have left alone; when all have ended the files are as after the same runs one after the other in whatever order; at every moment files that are no run's output are as they were and an output file is as it was or a beginning of what its run produces; no run ever waits for another, and each makes at most as many steps as its input and output have bytes, and 17; stopped at any moment and done again, the runs (none of which writes its own input) leave what they would have left without the first attempt. [Runs sharing an output are not guarded against: two that do, such as on x.wbro and x.w, can both end with success and leave a file that is the output of neither.]", "quantifier": "all numbers of runs, environments, arguments, inputs, disks, schedules and sizes of the pieces read and written", "why_tests_cant": "the interleavings of file operations are unbounded in number and length and not under a test's control", "anchors": ["atsc/src/main.rs: process_single_file", "atsc/src/utils/readers/bro_reader.rs: read_file", "wavbrro/src/read.rs: is_wavbrro_file, read_wavbrro_file", "wavbrro/src/write.rs: write_wavbrro_file"]}
{"id": "C113", "title": "Uncompressing a file while it is being compressed", "statement": "atsc compressing a file and atsc -u on its output at the same time, their file operations coming in any order, the output not having existed before: the compressing run ends with success and its complete output; the run -u either ends with success and exactly the samples the finished file uncompresses to, or ends with an error and leaves its output file as it was; never other samples; and no other file changes. [With an older compressed file in place this fails: the run -u can read the beginning of the old and the end of the new file, both runs end with success, and the samples are a mixture.]", "quantifier": "all pairs of runs, environments, arguments, contents, disks, schedules and sizes of the pieces read and written", "why_tests_cant": "the interleavings of file operations are unbounded in number and length and not under a test's control; a test would have to stop the writer after each byte", "anchors": ["atsc/src/main.rs: process_single_file, decompress_data", "atsc/src/data.rs: CompressedStream::from_bytes", "atsc/src/utils/readers/bro_reader.rs: read_file"]}
{"id": "C114", "title": "--error 0 is lossless for decimal data", "statement": "atsc with --error 0, the default compressor and the default level (or fewer samples than the level looks at), on input whose finite samples are decimals with at most five digits after the point, different samples being different in single precision too (in particular: whole numbers up to 2^24), and then atsc -u: both commands succeed and the .wbro file holds the values of all finite samples, in order; a WBRO file whose samples are all finite and not zero comes back byte for byte. [Without the two conditions this fails: 2^24, 2^24 + 1 comes back as 2^24, 2^24, and 1.000001 can come back as 1.]", "quantifier": "all sample vectors and input files of such samples, all command lines with these settings, all environments and FFT libraries, all interpolation libraries that return the knots at the knots", "why_tests_cant": "which of three compressors stores a chunk depends on the sizes and errors of all of them over every chunk of the input; losslessness has to hold for every choice and every input, and one sample that a rounding step changes is enough to break it", "anchors": ["atsc/src/main.rs: compress_data, decompress_data, process_single_file", "atsc/src/frame/mod.rs: CompressorFrame::compress_best", "atsc/src/compressor/fft.rs: FFT::compress_bounded", "atsc/src/compressor/polynomial.rs: Polynomial::compress_bounded, to_data", "atsc/src/compressor/rle.rs"]}
{"id": "C115", "title": "Whole runs at the same time, on directories too", "statement": "Any number of runs of atsc at the same time, each on a file or on a directory, their file operations coming in any order, no run writing a file that another reads or writes: a run that is over has the exit status it would have had alone, and the files it reads and the files it writes are as they would be after it alone; when all are over the files are as after the same runs one after the other in whatever order; at every moment files no run writes are as they were, and the files of a run are as after the run alone on some number of its first files, but for one at most, which holds a beginning of what the next file gives; no run ever waits for another; every run comes to an end after a number of steps that does not depend on the schedule; stopped at any moment and done again, runs none of which writes a file it reads leave what they would have left without the first attempt. A run alone processes its files one after the other until one cannot be processed. [A run that writes the file it reads, such as on a WBRO file called x.bro, can be stopped where the file is empty: doing it again then fails and leaves it empty.]", "quantifier": "all numbers of runs, environments, arguments, files and directories, disks, schedules and sizes of the pieces read and written", "why_tests_cant": "the interleavings of the file operations of walks over directories are unbounded in number and length, and so are the moments at which they can be interrupted", "anchors": ["atsc/src/main.rs: process_args, process_directory, process_single_file"]}
{"id": "C116", "title": "The .bro format, and which files can be uncompressed", "statement": "A .bro file is the letters BRRO, a four-byte little-endian version that is 0 or 1, one byte, and a list of frames; whatever follows is ignored. A frame is a size, a number of samples, the code of a compressor and a list of bytes, the payload. Numbers are one byte up to 250, or 251, 252, 253 and then two, four, eight little-endian bytes (shorter numbers may be written in the longer forms); signed numbers, samples at each depth, and the payload of each compressor likewise follow a grammar. Reading a stream succeeds exactly on the files of that grammar, and the bytes determine the frames. A file can be uncompressed exactly if it is of the grammar and each of its frames has a payload of the form its compressor demands, no frequency of an FFT frame that is not flat lies outside the transform, and no polynomial or IDW frame that is not flat has step 0; frames tagged Auto never can. What comes out of a frame is given by its payload: the whole numbers of a Noop payload, the one sample of a Constant payload, at each position the value whose run begins last in an RLE payload (zeros before the first run), for FFT the inverse transform of the mirrored frequencies, for polynomial and IDW frames the interpolation through the points at every step-th and the last position, rounded to five decimals within the limits, and the limit itself in flat frames. [Left out: polynomial and IDW frames of no samples; and, for what comes out, RLE payloads two of whose runs begin at the same place and FFT payloads with two frequencies at the same place or one in the mirrored half.]", "quantifier": "all byte sequences, whether written by atsc or not, and all frames", "why_tests_cant": "there are infinitely many byte sequences; that none besides those of the format is accepted and that every one of the format is, however long and in whatever form of the numbers, cannot be sampled", "anchors": ["atsc/src/data.rs: CompressedStream::from_bytes, decompress", "atsc/src/header.rs: CompressorHeader", "atsc/src/frame/mod.rs: CompressorFrame", "atsc/src/compressor/*.rs: decompress, to_data, get_positions", "atsc/src/lib.rs: BinConfig"]}
{"id": "C117", "title": "Running again after failed runs", "statement": "After any number of runs of a program in which file operations failed (an input that could not be opened or read to the end, an output that could not be created, a full disk, a directory that could not be listed to the end), an undisturbed run ends exactly as it would have without them: the same exit status and the same files, nothing of the failed runs left. For atsc on a file: if the output is another file than the input; on a directory (over the same listing): if no file of it is the output of one of its files; for csv-compressor: if the input is none of its outputs; for wav2wbro: if the WAV library could open the file in each of the failed runs, or the undisturbed run succeeds. A run of csv-compressor (that does not pass over its input) or wav2wbro that succeeds gives the same files whatever is in its output files beforehand, so also after runs that were killed. [Each condition is needed: a file that is its own output is lost to a full disk, so that running again fails where the undisturbed run would have succeeded; and after a run of wav2wbro in which the library could not open a file that cannot be converted, an empty series stays in the place of the output.]", "quantifier": "all inputs, options and initial files, all numbers of failed runs, all combinations of failing operations in each of them", "why_tests_cant": "which operations fail, after how many bytes, in how many runs, and what was in the files before, cannot be enumerated", "anchors": ["atsc/src/main.rs: process_single_file, process_directory", "csv-compressor/src/main.rs: process_args", "tools/src/bin/wav2wbro.rs: main", "wavbrro/src/write.rs: write_wavbrro_file", "vsri/src/lib.rs: flush_to", "csv-compressor/src/csv.rs: write_samples_to_csv_file"]}
{"id": "C118", "title": "Different programs at the same time", "statement": "Any number of runs of atsc, csv-compressor and wav2wbro (each with its own command line) may be under way at the same time, their file operations interleaved in any way and their reads and writes split into pieces of any size. If no run writes a file that another one reads or writes, then: each run that comes to its end has the exit status it would have had alone, and the files it reads and the files it writes are as it alone would have left them; no run ever waits for another, every run ends after a bounded number of steps, and when all have ended the files are those of running them one after the other, in any order; at every moment (so also if everything is killed) a file that nobody writes is as it was, and a file that one of them writes is as it was or holds a beginning of something that run would have stored in it alone. What a run touches can be told from its command line: atsc its input (or the regular files of it) and their outputs; csv-compressor its input, when uncompressing the .vsri file beside it, and the outputs asked for; wav2wbro its input and the same name ending in wbro. [Without that condition it fails: a run that reads what another is writing may end as if it had found any beginning of it there; atsc on a.wbro, beside wav2wbro on a.wav, can panic although it succeeds both before and after.]", "quantifier": "all numbers of runs of the three programs, all command lines, all initial files, all schedules, all sizes of the pieces read and written, all moments", "why_tests_cant": "a test runs one schedule; the interleavings of three programs and the sizes of the pieces of each read and write cannot be enumerated", "anchors": ["atsc/src/main.rs: main, process_args, process_directory, process_single_file", "csv-compressor/src/main.rs: process_args", "tools/src/bin/wav2wbro.rs: main", "atsc/src/utils/readers/bro_reader.rs: read_file, is_bro_file", "wavbrro/src/read.rs, write.rs"]}
{"id": "C119", "title": "Debug and release builds agree", "statement": "Unit tests run in the debug build, users run the release build. Every operation that depends on the build (all operations of the index, adding samples to a series, ingesting and reading back timed samples, adding chunks to a stream, compressing a series) ends in the same way in both builds, with the same result or the same panic, except where the debug build panics on an arithmetic overflow that the release build wraps. Whole runs of atsc, csv-compressor and wav2wbro with the same command line and files leave the same files and exit status in both builds, or the debug build panics (status 101), and then every file is as it was or holds something the release build stores in it. A series that the release build compresses is compressed by the debug build to the same bytes if it makes at most 255 frames, and makes it panic otherwise (so the same bytes below 32374784 finite samples, a panic above 33423360).", "quantifier": "all inputs, files and command lines, all indexes and series (also damaged ones)", "why_tests_cant": "tests run in one build and see only the inputs they contain; that the builds agree on all others is a statement about every arithmetic operation", "anchors": ["vsri/src/lib.rs", "wavbrro/src/wavbrro.rs: add_sample", "atsc/src/header.rs: add_frame", "atsc/src/data.rs: compress_chunk, compress_chunk_with, compress_chunk_bounded_with", "csv-compressor/src/metric.rs: append_samples, get_samples", "atsc/src/main.rs, csv-compressor/src/main.rs, tools/src/bin/wav2wbro.rs"]}
{"id": "C120", "title": "Killed and started again", "statement": "Any number of runs of atsc, csv-compressor and wav2wbro are under way at the same time; at any moment all of them, or some, are killed (a power cut, say); they, or some of them, are started again, at the same time; and so on, any number of times. If no run writes a file that another one reads or writes, or that it reads itself, then nothing of this shows in the end: a run that comes to its end has the exit status it would have had alone on the files as they were before everything; once it has come to its end its files are as it would have left them, whatever happens to the others; when all have, the files are those of running them undisturbed one after the other; and at any moment every file is as it was or holds a beginning of what is stored in it. Starting everything once more can always bring all of it to an end. [A run that writes what it reads is not safe: atsc on a file with the extension bro replaces its input, and, killed and started again, fails where it would have succeeded.]", "quantifier": "all numbers of runs and of interruptions, all moments of interruption, all schedules in between, all initial files and command lines", "why_tests_cant": "the moments at which runs can be killed, the states left then, and the histories of restarts cannot be enumerated", "anchors": ["atsc/src/main.rs: process_args, process_directory, process_single_file", "csv-compressor/src/main.rs: process_args", "tools/src/bin/wav2wbro.rs: main", "wavbrro/src/write.rs", "vsri/src/lib.rs: flush_to"]}
{"id": "C121", "title": "Compressing again and again", "statement": "Samples are compressed with some options, uncompressed, the result compressed with other options, uncompressed, and so on any number of times. Every next cycle succeeds (if its bytes fit in memory), and no cycle yields more samples than there were finite ones at the start. As long as no cycle uses Noop, and the finite samples are 0 or of magnitude between 2^-64 and 2^62, the result never drifts out of the original range: every sample is NaN, or finite and between two of the original finite samples - rounded to single precision, once, however many cycles used FFT or Auto; not rounded if none did. With Noop too, samples between two integers of magnitude at most 2^24 stay between them. Any number of RLE cycles returns the original finite values, and any number of Noop cycles does what one does: each finite sample becomes its nearest integer. [Noop leaves the range (0.75 becomes 1), and FFT the range of the unrounded samples (16777217 becomes 16777216).]", "quantifier": "all sample lists, all numbers of cycles, all options in each cycle, whatever the FFT and spline libraries compute", "why_tests_cant": "the number of cycles is unbounded, and with it the histories of roundings and of compressor choices", "anchors": ["atsc/src/main.rs: compress_data, decompress_data", "atsc/src/frame/mod.rs: compress_best", "atsc/src/compressor/*.rs", "atsc/src/utils/mod.rs: round_and_limit_f64"]}
{"id": "C122", "title": "How many samples csv-compressor can give back, and why its output is not its input", "statement": "csv-compressor keeps a time index with at least one and at most two samples per different second of the day. In a release build samples in time order of the day are always compressed, and what was written can be uncompressed exactly when there are at most one more finite values than the index counts; otherwise uncompressing fails without writing a CSV file. So in any build more than twice as many finite values as different seconds, plus one, cannot be given back; in particular no CSV file with more than 172801 finite values can. And csv-compressor reads milliseconds but writes seconds: for regularly spaced samples of one day, compressing and uncompressing the CSV file that the first cycle wrote ends in a failure whenever it holds more than 175 finite values, although the second compressing succeeds.", "quantifier": "every list of samples of fewer than 2^31, every compressor, error and level, in both cycles; whatever the FFT and spline libraries compute", "why_tests_cant": "needs more than 172801 samples, or two cycles, over all timestamps and values", "anchors": ["csv-compressor/src/metric.rs: append_samples, get_samples", "csv-compressor/src/main.rs: process_args", "vsri/src/lib.rs: update_for_point, get_time, get_sample_count"]}
{"id": "C123", "title": "NaN and infinities handed to the library", "statement": "What a caller of the library (the programs drop such samples first, C36) gets back for a chunk with NaN or infinite samples. RLE: if some sample in range (0, or magnitude from 2^-64 to 2^63) is not an integer, every sample comes back, NaN as the same NaN and infinities as themselves; if the chunk does not start with NaN and all other samples are finite and in range, those come back as equal numbers and the NaNs either all as NaN or all as 0. Polynomial, IDW and FFT, with or without a bound: unless the chunk starts with NaN, every sample that comes back is NaN or between two samples of the chunk (for FFT rounded to single precision). Auto, bound 0 to 1000000: if a sample among those the level examines is NaN or infinite, the chunk has at least six samples and two examined ones differ in single precision, the frame is RLE, so those guarantees apply. (Refuted expectations: a chunk starting with NaN, or holding an infinity, can give back 255 for an ordinary 1000; Auto stores 7, NaN, 7 as the constant 7, and the NaN comes back as 7.)", "quantifier": "every chunk of any f64 values of fewer than 2^64 samples, every bound, level and history; whatever the FFT and spline libraries compute", "why_tests_cant": "NaN makes every comparison false, so which branch is taken depends on the position and combination of non-finite values in the chunk", "anchors": ["atsc/src/optimizer/utils.rs: DataStats::new, split_n", "atsc/src/compressor/rle.rs", "atsc/src/frame/mod.rs: compress_best", "atsc/src/utils/error.rs: error_mape", "atsc/src/compressor/polynomial.rs: compress_bounded", "atsc/src/compressor/fft.rs: compress_bounded"]}
{"id": "C124", "title": "What --compressor constant gives back", "statement": "atsc with --compressor constant, whatever the error and level, and then atsc -u: both commands end with status 0, and every sample of a frame (the frames are those of C80: 131072 samples each, then smaller ones) comes back as the smallest finite sample of its frame (finite samples being 0 or of magnitude from 2^-64 to 2^63). So the values come back exactly if within each frame they are all the same. [One might expect data that are not constant to be refused, or the error bound to be kept: 5, 1, 3 with --error 1 come back as 1, 1, 1.]", "quantifier": "all inputs of up to 2^28 samples (in a debug build few enough for 255 frames), every error and level, all command lines; whatever the FFT and spline libraries compute", "why_tests_cant": "all sample lists, of any length and so with any number of frames; that values come back only then is a statement about all lists that are not constant within frames", "anchors": ["atsc/src/compressor/constant.rs: constant_compressor, constant_to_data", "atsc/src/data.rs: CompressedStream::compress_chunk_with", "atsc/src/main.rs: compress_data", "atsc/src/optimizer/mod.rs: OptimizerPlan::plan"]}
{"id": "C125", "title": "RLE restores files byte for byte, negative zeros apart", "statement": "atsc --compressor rle and then atsc -u, finite samples being 0 or of magnitude from 2^-64 to 2^63: every sample that is not zero comes back bit for bit; a zero comes back without its sign in a frame of whole 32-bit numbers, and otherwise with the sign of the last zero of those in a row. So the WBRO file written by the second command is byte for byte the one that was compressed - also if that has been deleted and other files have changed in between - exactly if all its samples are finite and every frame (C80) has no negative zero, or is not one of whole 32-bit numbers and has no two neighbouring zeros of different signs. [That every file is restored byte for byte is refuted: 5, -0 comes back as 5, 0.]", "quantifier": "all WBRO files of up to 2^28 samples (in a debug build few enough for 255 frames), all chunks, every error and level, all command lines; whatever the FFT and spline libraries compute", "why_tests_cant": "bit for bit equality over all 2^64 doubles, all lists and all combinations of frames; the exceptions depend on neighbouring samples and on every other sample of the frame", "anchors": ["atsc/src/compressor/rle.rs: IndexRLE::compress, rle_compressor, rle_to_data", "atsc/src/optimizer/utils.rs: DataStats::new", "atsc/src/main.rs: process_single_file", "wavbrro/src/wavbrro.rs: to_file_with_data"]}
{"id": "C126", "title": "Polynomial and IDW keep every so-many-th sample, whatever the error", "statement": "Whatever the error bound (a finite one of magnitude up to 2^40, or the entry point without a bound), a Polynomial or IDW frame of finite samples (0 or of magnitude from 2^-64 to 2^63) keeps the first sample, the last and every step-th in between, for some step from 1 to 133: these come back to five decimals, and with exactly their value if they have at most five decimals. So does every frame of a file compressed with atsc --compressor polynomial or idw and any --error, and decompressed again. [That the samples in between come back is refuted: with --error 5 IDW turns a spike of 11 among tens into 10.]", "quantifier": "all non-empty chunks of up to 2^53 samples and all bounds; all sample lists on the command line (in a debug build few enough for 255 frames), every --error and level; all spline and IDW implementations that pass through their knots, and the reconstructed crates without assumption", "why_tests_cant": "which step is chosen depends on all samples and on the bound; the kept samples pass through rounding, clamping and an integer or float cast whose accuracy is over all doubles", "anchors": ["atsc/src/compressor/polynomial.rs: Polynomial::compress_bounded, get_positions, polynomial_to_data, idw_to_data", "atsc/src/utils/mod.rs: round_and_limit_f64", "atsc/src/main.rs: compress_data, decompress_data"]}
{"id": "C127", "title": "Which files Noop gives back byte for byte", "statement": "atsc --compressor noop and then atsc -u: every finite sample comes back as the nearest whole number from -2^63 to 2^63 (halves away from zero), never as a negative zero. So the WBRO file written by the second command is byte for byte the one that was compressed - also if that has been deleted and other files have changed in between - exactly if all its samples are finite whole numbers of that range and none is a negative zero; and samples that came out of a Noop file once come back bit for bit from any later Noop file. [That every file is restored is refuted: 1/2, -0 comes back as 1, 0.]", "quantifier": "all WBRO files of up to 2^28 samples (in a debug build few enough for 255 frames), every error and level, all command lines; whatever the FFT and spline libraries compute", "why_tests_cant": "bit for bit equality over all 2^64 doubles and all lists; rounding, saturation and the sign of zero at every magnitude", "anchors": ["atsc/src/compressor/noop.rs: Noop::optimize, noop, noop_to_data", "atsc/src/main.rs: process_single_file, compress_data", "wavbrro/src/wavbrro.rs: to_file_with_data"]}
{"id": "C128", "title": "Constant stretches come back byte for byte", "statement": "If in every frame of the layout (C80) all samples are one number (finite, 0 or of magnitude from 2^-64 to 2^63, not the negative zero), then atsc with any --compressor but noop, the default included, and any --error and level, followed by atsc -u, gives the samples back bit for bit - with fft rounded to single precision - and the WBRO file byte for byte; with fft exactly if all samples are single-precision numbers. [Not so with negative zeros, which auto turns into zeros, nor of all numbers with fft: 16777217 comes back as 16777216.]", "quantifier": "all such WBRO files of up to 2^28 samples (in a debug build few enough for 255 frames), every compressor but noop (C127), every error and level, all command lines; whatever the FFT and spline libraries compute", "why_tests_cant": "bit for bit equality over all doubles, all lengths and frame boundaries, and six compressors with their storage types; the default chooses the compressor itself", "anchors": ["atsc/src/frame/mod.rs: CompressorFrame::compress_best", "atsc/src/compressor/constant.rs", "atsc/src/compressor/polynomial.rs: to_data", "atsc/src/compressor/fft.rs: to_data", "atsc/src/compressor/rle.rs", "atsc/src/main.rs: process_single_file, compress_data"]}
