# Formal model of instaclustr/atsc in Lean 4 — design and trusted base

Sources: `/repo` (read as text, never built here). Model: `lean/Verif/*`.
Property list: `properties.jsonl`. Status per property: `MANIFEST.json`.

## 1. Approach

The Rust functions are transcribed one by one into total, computable Lean functions.

* `Result`/`Option` stay data.  A Rust panic (`unwrap`, `todo!`, index out of bounds,
  division by zero, arithmetic overflow in a debug build) is an explicit value of
  `Except Panic α` (`Verif/Model/Panic.lean`).
* `&mut self` methods return the new value.  Loops are structural recursions or folds;
  loops whose termination is data dependent carry the loop counter the code itself has.
* `f64`/`f32` are modelled bit-exactly (`Verif/Model/Float.lean`): a value is a sign bit and a
  magnitude bit pattern; `+ - * /`, comparisons, `round`, `as` casts, `to_bits` are the IEEE-754
  operations with round-to-nearest-even computed on exact integers.  The one deviation: the payload/sign of a
  NaN *produced by arithmetic* is fixed to the canonical quiet NaN (IEEE and Rust leave it open).
* Integers are `Nat`/`Int`.  Where Rust's fixed width matters (u8 step and frame counter, u16
  frequency position, i32 index arithmetic, i64 shifts in `split_n`, saturating casts) the
  truncation / wrap / overflow check is written out in the model.
* External libraries without source in this sandbox:
  * `bincode 2.0.0-rc.3` `config::standard()` — modelled at byte level (varint, zigzag, LE floats,
    length-prefixed vectors) and checked against every golden byte string in the repo's tests.
  * `rustfft`, `splines`, `inverse_distance_weight`, `f32::hypot` (complex norm) — *universally quantified parameters*
    (`Verif/Model/Ext.lean`).  A theorem that needs something about them says so in an explicit hypothesis.
  * `std::collections::BinaryHeap` — modelled (`Verif/Model/Heap.lean`: `rebuild`, `sift_up`, `sift_down_range`,
    `sift_down_to_bottom`, `pop`); that it pops a permutation, and pops in order when the comparison is a total preorder, is
    proved in `Verif/Lemmas/Heap.lean`.
  * `chrono` time-of-day — Euclidean arithmetic on seconds; the range `DateTime::from_timestamp` accepts is an arbitrary
    predicate `valid`.
  * `csv` — in `Csv` the tokeniser is a parameter (`rows`), with header handling, UTF-8 and the rejection of ragged rows modelled; in `CsvText` it is modelled too.
    `str::parse::<f64>` is a parameter (`parse`); C106 gives it, and csv-compressor's number formats, their concrete values (`NumText`).
  * `rkyv 0.7` — byte layout and validation of the one archived type, see section 4.
  * `clap 4.5` — the parsing loop is modelled (`Verif/Model/CommandLine.lean`) from its documented behaviour and the attributes in /repo; only
    C104 and `C98_refuted_output_csv` depend on it.
  * `hound` — a parameter (the channel count and the sample iterator).
  * the file system — a map from paths to contents (`Verif/Model/Files.lean`); a path is a pair of stem and extension, which C110 derives from the path text
    (`Verif/Model/Path.lean`; Unix, Unicode paths; `Path` and `PathBuf` of the standard library as documented, links and spellings such as `a//b` not resolved).
    Runs at the same time (`Verif/Model/Concurrent.lean`, C112; `Verif/Model/Walk.lean`, C115; `Verif/Model/Programs.lean`, C118, all three programs together) interleave at the level of opening, reading a piece, creating, writing a piece and closing.

Property theorems live in `lean/Verif/Props/*.lean`, specification vocabulary in
`lean/Verif/Spec/*.lean`, helper lemmas elsewhere.

## 2. Plan per property

Several properties a user would expect turned out to be false.  Where the exact behaviour could be proved for all inputs, the property states that exact
behaviour and says in brackets which stronger expectation fails; the failure is proved as a theorem `Cnn_refuted…` beside it (status `proved`).  Where only
part of a property is proved, or the exact behaviour is not a single statement, the property keeps its full wording and the status is `partial`.

Floating point foundation: exact value `F64.val : F64 → ℚ` as the specification; proofs that the
model's rounding is the nearest representable, ties to even, monotone and exact on representables.

| Property | Model | Proof |
|---|---|---|
| C01, C03, C08 | stream/frame/header encoders and decoders over byte lists | `decode (encode x ++ rest) = some (x, rest)` compositionally |
| C02 | same | decoders are stable under extension ⇒ strict prefixes are rejected |
| C04 | `from_bytes` | case analysis of success |
| C05 | `add_frame` with both overflow modes | induction over calls; refutation at 256 frames |
| C06, C07 | `CompressedStream` as a state machine | induction over calls; per-compressor length lemmas |
| C09 | varint / zigzag | arithmetic on base-256 digits |
| C10, C11 | `IndexRLE::new` loop, sorted map, `to_data` | runs invariant; permutation + sort uniqueness; refutation witnesses for C10 outside the safe range |
| C12 | `Constant` | from C15 |
| C13 | `Noop` | rounding lemmas |
| C14, C15 | `DataStats::new`, `split_n` on 64-bit patterns | fold invariants; bit arithmetic; refutations |
| C16–C19 | `Polynomial` with interpolators as parameters | arithmetic on positions; loop invariant with counter; float error analysis for C19; what is reported and what survives, exactly (`PolyReport`) |
| C20–C24 | `FFT` with FFT/IFFT/norm as parameters, `BinaryHeap` modelled | as above; both sides of the 65536-bin limit (C21); what is reported for every bound (`FftReport`, C24) |
| C25–C28 | `compress_best` | case analysis over candidates; C28 exactly for chunks tried whole (`C28_exact`), refutations for its full wording |
| C29–C32 | error metrics, rounding | monotonicity of rounding |
| C33, C34 | `next_size`, `is_decomposable`, `prev_power_of_two` | number theory |
| C35, C36 | optimizer plan | induction |
| C37–C39 | `WavBrro` | refinement to the list of added samples; byte level file format |
| C40–C50 | `Vsri` with checked i32 arithmetic | refinement to the list of accepted points |
| C51 | day arithmetic | omega |
| C52 | csv reading over parsed records | induction |
| C53–C55 | CLI functions over an abstract file system | composition |
| C56, C57 | `Metric`, wav join | induction / arithmetic |
| C58 | bounded search + reported error + decoder | composition of C18/C24 with the decoders; lifted to the command line for Polynomial/IDW and FFT; without excluded cases for samples away from zero; refutations |
| C59, C60 | WBRO bytes, `write_at` cut short | reader invariants on arbitrary bytes; for cut files: the vectors the reader finds lie before the end of the samples, in order |
| C61, C62 | `process_single_file` over `Fs` | case analysis; composition of C39, C53, C54 |
| C64, C65 | FFT decoder spectrum (`mirrorLoop`, `Fft.toData`), library laws as hypotheses | loop invariant on untouched bins; Hermitian symmetry; error propagation of casts, clamp, decimal rounding |
| C66 | plain `Fft.compress` vs `Fft.toData` | C64 at the decoder's length; refuted from 128 samples on |
| C67 | error metrics vs exact rational formulas (`Spec/Metrics.lean`) | relative error of float additions (exact when the sum is subnormal), induction over the sum, ratio perturbation |
| C68 | `error_smape` | magnitude monotonicity of rounding for the range; refutation of the scale from C67 |
| C69 | `compressData` down to the bytes | composition of C54's pipeline with the payload shape of each compressor; `compressBest` by induction on the candidates |
| C70 | `Vsri.load` on any beginning of `Vsri.flush` | prefix analysis of the text line by line and field by field; refutations |
| C71 | `broRead`, `decompressData`, `processSingleFile` on any proper beginning | C06-style: the reader consumes exactly its input |
| C72 | csv-compressor `main` over `Fs`, keeping the files on a panic | case analysis; C63 lifted to files; refutations |
| C73 | encoders' output lengths (`Spec/Size.lean`), search rounds of FFT | sums over encoded items; bound on the jumps of the search; C26 for Auto; refutation for raw size |
| C74 | decoders on arbitrary frames | length invariants of fill, mirror, spline loops; refutation for Noop; small file with any count |
| C75 | `compressData` → `decompressData` → `compressData` | Noop rounding is idempotent; C54's pipeline; RLE via C54's values; counterexample for RLE bytes |
| C76 | `thisOrPrevious`, `thisOrNext` vs `allTimestamps` | segments cover the sample numbers, timestamps increase; C44 for the lookup; exact at every time (`VsriPrev`, `VsriNext`); refutations |
| C77 | the five metrics on exchanged arguments, and at 0 | `a - b` and `b - a` have the same magnitude bits; zero through the error bounds of C67 (`MetricZero`); counterexamples |
| C78 | `calculateError` vs equality of values | gap between neighbouring floats, monotone sums of non-negative floats |
| C79 | two runs of the FFT / Polynomial / IDW search with bounds e ≤ e' | relational induction over the two loops from the same state; what is stored grows along the loop |
| C80 | `get_chunks_sizes` against the closed form `frameSizes` (Spec/Layout) | induction on the loop, case split on the leading power of two; then inversion of `compress_data` |
| C81 | two runs of the compress/uncompress pipeline | the decoded series is one piece per expected piece, each a function of that piece alone and of its length |
| C82 | `clean_data` inside `compress_data` | cleaning is idempotent |
| C83 | two runs of `update_for_point`: the history, and the timestamps reported for it | lock-step simulation: same segments after every point, in both build profiles |
| C84 | pairs of lookups on one index | a successful lookup finds the last sample not after its argument; counterexamples for `get_this_or_next` and `get_time` |
| C85 | interrupted and uninterrupted runs of the stream, the index and the metric | append lemmas for the three runs; round trips C01, C39, C49 with field ranges kept by every update |
| C86 | a file system after a crash: the output of a run that writes is arbitrary, everything else as before | characterisation of successful runs by a specification (`Output`, `Skipped`); counterexamples for self-output and directories |
| C87 | two directory runs over the same listing | simulation of the first run by the second; refuted for compression by the first four bytes of any compressed file |
| C88 | `main`, `process_args`: file system left behind and exit status | case analysis and induction over the listing |
| C89 | `compress_best` at level 0 through `compress_data`/`decompress_data`, exact MAPE | C26 (what auto stores is within the bound) + C67-style float error bounds from computed to exact MAPE + window/padding ratio (32/27) + C10/C12/C18/C19/C22; `C89_levels_partial` (Props/Sampled.lean) covers every level: when only a beginning of the chunk was compared, what the chosen compressor promises by itself (C58) |
| C90 | `DataStats::new` | rounding-error induction for signed sums; the exponent cases of `split_n` in both directions |
| C91 | `update_for_point` over arithmetic stretches, `flush` | effect of one point on the segments (four cases), a stretch opens at most one segment by induction; digits bound the file |
| C92 | `toFileWithData` against a separate layout specification (`WbroLayout`) | offsets through the encoder's append structure, block sizes by strong induction |
| C93 | `processSingle --csv` over `csvRows` | C94 gives the rows of the text, C52 the column, then `compressData` of exactly these samples |
| C94 | `csvTokens` (model of csv-core's transitions) against the grammar `CsvText` | what the state holds after each field and row, by induction on the derivation |
| C95 | `csvSerialize`, `csvDeserialize` | the written text is a `CsvText`; C94; number formatting first under the law `NumText.Lawful`, then (`C95_real`, `C95_real_files`) with the real formatting of C106, which meets the law |
| C96 | `wavMain` (the whole of wav2wbro), `readWav`, `stripWav` | case analysis of the run; C37, C39 and C57 for its parts; the WAV reader is an arbitrary function |
| C97 | `Vsri.run` on non-decreasing histories | invariant on the last segment relating its number of samples to the number of different timestamps, by induction on the history |
| C98 | `compressData`, `runMain` under two settings | congruence of the whole run in the options; case analysis of the compressor |
| C99 | `Frame.enc` of the frame a call adds | exact length of the encoding; recorded size computed |
| C100 | `Io`: both programs with an oracle for every open, read, create and write | case analysis of one attempt (`tried`), induction over the listing with the attempt counter |
| C101 | `Stream.fromBytes`, `decompressData` on files with changed fields | unfolding of the decoders for arbitrary contents; refutation by execution |
| C102 | `Model/Compressor.lean`, `Model/Fft.lean`, `Model/Poly.lean` | equality of the two computations for every input: the min/max loop of `fft.rs` is shown to find what `DataStats::new` finds |
| C103 | `Model/Utils.lean` `f64ToU64` on the bit-exact doubles | monotonicity of rounding between representable integers; `C103_refuted_floor` for the stronger reading |
| C104 | `CommandLine`: the argument tables of the three programs and clap's parsing loop (external, written from its documented behaviour) | grammar `Line` (spec) of all spellings against the loop, both directions, for any table that agrees with a manual; the three tables agree with the manuals by case analysis; settings by `chosen_iff` |
| C105 | `VsriFile.loadFile` on bytes against the specification `Spec/IndexFile` (lines, fields, white space) | both directions, function by function: fields, segments, lines, files |
| C106 | `parseF64`, `parseI64`, `ryuText` (Model/NumText) against Spec/Decimal: notations of rationals, the nearest double, the shortest decimal | reading: parts of the notation, then `ofRound` is the nearest double for every fraction; writing: the set of decimals read as `x` is an interval, the search from the largest power of ten finds its best element |
| C107 | `atscMain` run twice (Model/CommandLine, Main, Files) | C104 (what the words mean), C88 (status 0 exactly with the output written), C53/C54 (the file is accepted and decompresses), C39 (the `.wbro` file reads back) |
| C108 | `wavMainIo`, `wav2wbroIo` (Model/WavIo): wav2wbro with failing opens, reads and writes | a run stops before writing or comes to the writing with the values of the undisturbed run; the three ways a write can go; C96 for the empty output |
| C109 | `talkMain`, `atscTalk`, `debugList`, `debugText`, `debugDigits` (Model/Verbose): the three `println!` of atsc and the `Debug` format of `Vec<f64>` (Rust 1.81, not in the repository) | printing is a layer over `runSingle`/`runDir` (`talkSingle_eq`); the shortest-decimal search as in C106 with ties away from zero; entries contain no separators, so the list can be split again |
| C110 | `pathMain`, `pathDir`, `pathSingle`, `pathAtsc`, `setExtension`, `joinPath` (Model/Path): paths as text, `PathBuf::set_extension` and `DirEntry::path` of the standard library | a decomposition of every path text (directory, stem, extension, ignorable end) with uniqueness; `pathMain` refines to `runMain` over `FPath`, which makes the stem/extension pairs of the rest of the model exact |
| C111 | `wav2wbro`, `pathAtsc` (C96, C104, C110) on one disk | composition of C96, C54, C39 with the file names of C110 |
| C112 | `Job.Step`: `process_single_file` as file operations (Model/Concurrent), any number of runs, any schedule | invariant tying each run's phase to what `pathSingle` does alone, kept by the run's own steps and by the others' because they write elsewhere; a rank that falls with every step; the mixture left by runs sharing an output is constructed |
| C113 | `Job.Step` of a compressing run and a run `-u` on its output | joint invariant: while the writer has not created its output the reader has read nothing, afterwards what it has read is a beginning of the finished file; C71 for beginnings; the mixture with an older file is constructed |
| C114 | `compress_data`/`decompress_data` with bound 0 and `auto`, and two command lines in a row | `C28_exact` per chunk (lossless iff all equal, or told apart by f32 and every sample survives five decimals); decimals survive (`decimal_fixed`), whole numbers up to 2^24 are exact in f32; composition as in C54 and C107 |
| C115 | `process_args` and `process_directory` as steps around the file operations of `process_single_file` (`Model/Walk.lean`), any number of runs interleaved | invariant per run: `k` files done, the files it reads and writes as after it alone on those (a virtual disk only it writes), the current file by the invariant of C112; a second attempt on a failing file changes nothing, so a directory is a walk that stops at the first failure; for interruptions: each file is either written with a content that does not depend on it, or left alone; in place: an execution up to the creation of the output |
| C116 | the decoders of the model, against a grammar of the file as inductive relations between values and bytes (`Spec/BroFile.lean`, which mentions no decoder) | each decoder reads exactly what a relation says (`Reads`), closed under sequencing and repetition, so the stream decoder accepts exactly the files of the grammar; per compressor, when `to_data` succeeds; RLE by induction over the runs sorted by position; positions of the points by their divisibility; the spline's missing values by recursion. Duplicate run positions are left out because `sort_unstable` leaves their order open |
| C117 | any number of runs of the programs with failing file operations (`Model/Io.lean`, `Model/WavIo.lean`) folded one after the other, then the undisturbed run of `Model/Main.lean`, `Model/CsvCompressor.lean`, `Model/Wav.lean` | the undisturbed run is a list of writes that depends on the contents of the inputs only; a disturbed run changes only files on that list (for directories: outputs of entries the undisturbed run reaches); induction over the runs; refutations for inputs that are outputs and for a WAV library that cannot open the file (`Props/Retry.lean`, `Props/WavRetry.lean`) |
| C118 | the three programs, from the command line, as sequences of file operations (`Model/Programs.lean`), any number of them interleaved; `Spec/Programs.lean`: what a program does alone and which files it touches | invariant per program: the rest of it, started on the files it would have alone at this point, ends like the whole; a measure of the steps to come; running alone is shown equal to `pathAtsc`, `csvMain`, `wav2wbro`; the files touched by induction on the programs; a refutation for a file written by one and read by another (`Props/Programs.lean`) |
| C119 | the build profile is a parameter of every model function with integer arithmetic that can overflow (`i32op`, `addSample`, `Header.addFrame` and everything above them), up to the programs of `Model/Programs.lean` | both builds run in lock step: a relation closed under bind and case distinction, then a simulation between the programs (the debug program is the release program with some rests replaced by a panic); counting frames for the exact limit (`Spec/Builds.lean`, `Props/Builds.lean`). Not covered: overflow of `usize`/`u64` counters, which would need more than 2^64 bytes of memory |
| C120 | `Spec/Eras.lean`: eras of interleaved execution (`Model/Programs.lean`), each started afresh on the files the previous one left | what killed programs leave differs from the original files only by beginnings of contents they store; programs that read the same store the same, so the relation is preserved from era to era and a program that ends overwrites what was left; refutation for a program that writes its input (`Props/Eras.lean`) |
| C121 | `Spec/Cycles.lean`: compressing, uncompressing, compressing the result, … with any list of arguments | per compressor: an output sample is a limit of the chunk's range (FFT: rounded to single precision) or a value rounded to five decimals, which is 0 or at least `2^-64` (`round5_grid`), so the magnitudes stay in the range where RLE/Constant are exact; single-precision rounding is monotone and idempotent; induction on the cycles (`Props/Cycles.lean`) |
| C122 | `csvCompress`/`csvUncompress` (metric.rs, main.rs), `Vsri.getTime` with its off-by-one at the sample count, CSV text in between (`CsvText`, `NumText`) | the index of a non-decreasing history is contiguous and has at most two samples per second (C97); `get_time` fails exactly above the count; seconds of a day read as milliseconds are at most 87 different seconds |
| C123 | `DataStats.new`, `splitN` on non-finite patterns, RLE, `error_mape`, first round of both searches, `compressBest` | NaN changes no statistic unless it comes first (fold relation); a NaN is a run of its own; every MAPE term of a non-finite sample is NaN, so the lossy candidates report NaN, which is not `<=` the bound (C25's case analysis) |
| C124 | Constant through the whole command-line pipeline | the statistics' minimum is the least sample; the storage type holds it (C15); pieces of the stream from C81's decomposition |
| C125 | RLE runs, storage types and the WBRO writer, through two command lines | a nonzero value determines its bits (injectivity of the magnitude); the run end of C11 for zeros; pieces of the stream as in C81; the writer is a function of the samples |
| C126 | `Polynomial` (both interpolators) and the stream, through `compress_data`/`decompress_data` | the decoder's value at each stored position (splines and IDW pass through their knots, `Ext.Interpolates`, proved for the reconstructed crates), then rounding and clamping as in C19, C32; pieces of the stream as in C81 |
| C127 | Noop, the stream and the WBRO writer, through two command lines | the sample Noop returns is a fixed point of Noop; equal nonzero values have equal bits, `ofInt 0` is the positive zero; `file_restored` turns any condition for the samples into one for the file (the writer is injective by reading back) |
| C128 | every compressor but Noop on constant chunks, the layout, the stream and the WBRO writer, through two command lines | minimum and maximum are the sample itself; the storage type keeps its bits (castBD); each compressor's constant case; pieces of the stream as in C81; `file_restored` |
| C63 | csv-compressor: `Metric` + `.bro` + `.vsri` | composition of C43–C46, C49, C54, C56 |

Where the code violates a property in its natural wording, the model proves the negation (on a witness, often for every
input of a kind) and either the exact behaviour or a `_partial` theorem on the domain where the property holds.

## 3. Trusted base

* Lean 4.33.0 kernel.  Every theorem depends on (a subset of) the axioms `propext`, `Classical.choice`, `Quot.sound`; none is
  added, nothing rests on compiled evaluation.  Concrete witnesses are evaluated by the kernel (`decide +kernel`, `rfl`).
* The faithfulness of the transcription: every definition in `lean/Verif/Model` cites the file and lines it models and
  says where it simplifies.  As a check, every unit test of `/repo` with literal data is re-run on the model in
  `Verif/Props/Golden.lean` (constant, noop, rle, polynomial, data, header, error, utils, optimizer, stats, wavbrro,
  csv) and, with the reconstructed interpolation crates, in `Verif/Props/InterpGolden*.lean` (polynomial and IDW decoding).
  `Verif/Props/GoldenFile.lean` compares the modelled WBRO writer, byte for byte, with the three `.wbro` files of atsc/tests/wbros.
* The assumed behaviour of external crates: bincode's format (golden-checked), rkyv's layout and validation
  (golden-checked for writing), clap's parsing loop (C104 only), the csv crate's tokeniser (C93-C95 only), Rust's and the csv crate's number formats (C106 and C109 only), and, only where a theorem states it as a hypothesis, `Ext.Lawful` (transforms keep the
  length) and `Ext.Interpolates` (an interpolation
  passes through its interior knots).  `Verif/Model/InterpLib.lean` reconstructs `splines` and
  `inverse_distance_weight` and `Verif/Props/Interp.lean` proves that the reconstruction satisfies
  `Ext.Interpolates`; `Verif/Spec/Dummy.lean` shows that the other laws are satisfiable.
* `Verif/Spec/*.lean`: the vocabulary of the statements (exact value of a float, runs, nearest integer, finest
  segments …).  These files do not import proofs.

## 4. What is modelled

| Source | Model | Not modelled |
|---|---|---|
| atsc/src/compressor/{mod,constant,noop,rle,polynomial,fft}.rs | `Compressor`, `Simple`, `Poly`, `Fft` | `Display`, logging, `fft.rs` debug printing |
| atsc/src/frame, header.rs, data.rs | `Frame`, `Stream` | — |
| atsc/src/optimizer | `Optimizer`, `Stats` | the never-consumed iterator in `get_compressor` |
| atsc/src/utils/{mod,error}.rs | `Utils` | `DECIMAL_PRECISION` is inlined as 5 |
| atsc/src/utils/readers, main.rs | `Cli`, `Files`, `Main` (entry point, exit status), `CommandLine` (arguments), `Verbose` (what `--verbose` prints, C109), `Path` (paths as text, C110) | I/O errors other than a missing file are in `Io` only (C100) |
| atsc/src/csv.rs | `Csv`; the `csv` crate's tokeniser is a parameter there and is given concretely in `CsvText` (documented behaviour of csv 1.3.1 on bytes, byte order mark and fields that are not UTF-8 included) | - |
| wavbrro/src | `Wavbrro`, `Io` | read errors in the middle of a file; the buffer address is a parameter (`addr`) |
| vsri/src/lib.rs | `Vsri`, `VsriFile` (files as bytes; UTF-8 decoding checked against Lean's encoder in `Lemmas/Utf8`) | the name stored in the index |
| csv-compressor/src | `Metric`, `CsvCompressor`, `CsvText`, `NumText` (csv.rs) | `NumText` (numbers as text) is a model of `dec2flt`, `ryu` and the csv crate's integer reader by what they are documented to compute (correct rounding, shortest digits), not of their algorithms |
| tools/src/bin/wav2wbro.rs | `Wav`, all of it including `main`; `WavIo` with failing file operations (C108) | `hound` (an arbitrary function of the file content) |

Not modelled at all: logging, wall-clock performance, allocation failure, scheduling (the code is single-threaded), the texts printed by clap (help, usage errors) and to the log.

Integers: `usize`/`u64` are naturals with explicit `< 2^64` hypotheses where the width matters; `i32` arithmetic of the index
goes through `i32op`, which panics in a debug build and wraps in a release build; loops carry fuel that is proved never to
run out.

## 5. Seeded faults

`seeded/LOG.jsonl` records edits of the model made in a scratch copy (one realistic bug each), the claim each breaks and
the theorems that stop checking.  Theorems that survived an edit they should have caught were tightened.

## 6. Findings

Behaviour of the code that contradicts the natural reading of a property; each is a theorem (`_refuted…`) or a hypothesis of a
`_partial` theorem.

* `split_n` sees a non-zero value of magnitude below 2^-64 as the integer 0, wraps at 2^63 and gives 0 for NaN/∞, so the chosen
  bit depth may not hold the data (C10, C12, C15, C18).
* An empty or all-NaN series compresses to a 10-byte file which the reader rejects (C53, C62).
* Polynomial/IDW output is rounded to 5 decimals, so storing every point with reported error 0 is not lossless (C19, C28).
  A NaN MAPE ends the search after one round; bounds of about 2^53 or ∞ skip the search and store nothing (C16, C18).
* FFT: extremes that collide in `f32` report error 0 (C24, C28, C58); frequency positions wrap for 131072-sample frames (C21); plain
  `compress` does not pad while the decoder assumes padding from 128 samples on; round 23 is accepted whatever its error (C58); errors
  are compared after `(x * 1000) as i32` and measured on the padded data.
* Auto: level ≥ 7 panics; a NaN bound panics on long chunks; the sampled branch picks by a prefix without re-check (C25, C26, C28).
* MAPE is NaN exactly when a zero is reproduced as zero (C31).
* Header frame count wraps at 256 frames in release and panics in debug (C05).
* Index: repeated timestamps lose counts (C42) and can overflow in debug (C50); `get_sample` divides by zero on a one-point last segment and
  misses late last samples (C44); `get_time` uses the absolute sample number within later segments (C45); `get_next_sample`
  returns the start of the last segment (C47); `is_empty` misses a touching end point (C48).
* A failing file is processed twice and then aborts a directory run (C55); uncompress overwrites the original `.wbro` (C62).
* WavBrro: more than 2^28 samples panic on write; `write_at`'s count is ignored, so a short write is silent; a truncated file that
  ends in two zero samples reads as an empty series (C59).
* CSV: rows of unequal length and records that are not UTF-8 panic (C52, `C93_refuted_bad_record`); `--fields` without a comma panics. A header that is not UTF-8 is an error in atsc (`C52_bad_header`), while csv-compressor then silently takes the columns by position (`C95_refuted_bad_header`).
* csv-compressor: the day and the milliseconds of timestamps are lost, irregular spacing comes back wrong, four equal timestamps panic
  on reading, dropped NaNs shift later times (C63).
* `get_this_or_next` returns the *previous* sample strictly between two samples of a segment; `get_this_or_previous` returns None in the tail of the
  last segment and the sample count (no such sample) after the end (C76).  Recompressing RLE output may give other bytes (`-0.0`, C75).
* MSE, NMSE, MAE and SMAPE can be 0 for different series (underflow), MAPE cannot (C77, C78).
* Polynomial on 16-bit integers: allowing 11% instead of 10% error can make the payload larger (C79).
* `auto`: allowing 7% instead of 6% can make the payload of a chunk four times larger: the FFT search stops when its error in whole per mille is not above the bound, the choice compares exactly, so the FFT result just above 7% is thrown away and every sample is stored (C79, `C79_refuted_auto`).
* `get_this_or_next` and `get_time` are not monotone with several segments (C84).
* `process_directory` processes a failing file a second time and then returns its error: one `.bro` file in the listing - left by an earlier run, or
  created during this one and returned by `read_dir` - ends a compression run, and the files after it are not compressed (C87).  A `-u` run killed
  just after creating an output leaves an empty `.wbro` file that makes every later `-u` run of the directory fail (C86).
* `-u` on a file that is not a BRRO file exits with status 0 and writes nothing; files sharing a stem overwrite each other's output (C88, C110); `--output out/` of csv-compressor writes beside the directory (C110).
* With the defaults the FFT error is measured on the chunk padded to a 3-smooth length, so the real error can exceed the request by up to 32/27 (C89); above level 0 it can exceed it without limit.
* The header of a WBRO file never holds the sample number the README promises: bytes 4..7 are the text `0000` (C92).
* Numbers in CSV files: `nan`, `inf` and numbers too large for a double (`1e400`, read as infinity) are accepted as values without notice; a timestamp may be hexadecimal, with the sign after the `0x` (C106). NaNs written by csv-compressor lose their sign and payload (`C95_real`).
* An empty cell in a one-column CSV file is a blank line: it is skipped without notice (C94). `--fields` without a comma panics (C93).
* wav2wbro turns a file that `hound` cannot open into an empty series and reports success (C96); with `--validate` a *successful* comparison prints "data doesn't match", and a failing one leaves the written file behind. The same happens when the file cannot be opened a second time for a passing reason (C108).
* A timestamp repeated three times and followed by another point is not counted in full, so later sample numbers no longer match the values (C97).
* Every frame records the size 41, whatever it holds: `size_of_val` measures the struct, not its payload (C99). Nothing reads the field.
* README.md and docs/usage.md give 5 as the default error, the code's default is 3; without `-e` the program runs with 3 (`C104_refuted_readme_default`); the help's median filter at error 50 does not exist (`C98_refuted_median`).
* csv-compressor's `--output-csv` acts nowhere: the CSV is written with and without it (`C98_refuted_output_csv`). `-u` has no long form (`--uncompress` is a usage error, example in `Props/CommandLine.lean`).
* Whether a correct WBRO file can be read back depends on the address of the buffer the allocator returns: it must be a multiple of 8 (C39_exact_alignment).
* `csv-compressor -u` never flushes its CSV writer: when the disk is full, up to the last 8192 bytes of the CSV output are lost (a smaller output completely) and the program still ends with status 0 (C100, `C100_refuted_csv`).
* A failing compression run (full disk) replaces a good output of an earlier run by a cut one, which is at least always refused by `-u` (C100).
* There is no checksum: one changed byte in a payload gives other samples without a complaint (C101, `C101_refuted`); the frame count, the frame sizes and the compressor byte of most payloads are never looked at.
* vsri/README.md claims "5Bytes for 64k samples"; every non-empty index file takes at least 12 bytes (C91, `C91_refuted_readme`).
* Noop and RLE output can exceed the raw size (C73); a 29-byte file may uncompress to 2^64 - 1 samples, and Noop frames ignore their recorded count (C74).
* An index file cut at the end of a line or within its last number loads as a shorter index (C70).
* csv-compressor reads timestamps as milliseconds and writes them as seconds of the day: its own output, compressed and uncompressed again, makes it panic as soon as there are more than 175 values; and no file with more than 172801 values (two per second of a day) can be uncompressed, though compressing reports success (C122).
* Library only: a chunk that starts with NaN, or holds an infinity, is analysed as if its largest sample were 0, so an ordinary 1000 may come back as 255 from RLE; `auto` replaces a NaN among equal samples by their value (C123).
* `--compressor constant` accepts any data, ignores `--error` and replaces every sample by the smallest of its frame, with exit status 0 (C124).
* RLE loses the sign of negative zeros in frames of whole numbers, and changes signs within rows of zeros in others (C125).
* Polynomial and IDW always keep every so-many-th sample, but a spike between two of these may disappear within the bound (C126).
* `--compressor noop` accepts samples with fractions and rounds them to whole numbers, whatever `--error`, with exit status 0 (C127).
* Constant stretches are kept bit for bit by all compressors, but `fft` keeps single precision only, and `auto`, `constant` and `rle` lose the sign of a negative zero (C128, C125).
* csv-compressor: uncompressing with the default names replaces the original CSV; any `.vsri` beside the data is used; an index with fewer
  samples leaves the `.wbro` written and panics; without `--output-vsri` the data cannot be uncompressed (C72).
* wav2wbro: more than 4 channels panic; `--validate` panics exactly when a NaN was present (C57).
