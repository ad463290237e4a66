# Machine-checked model of libmpegh

## Trusted base

* The Lean 4.33.0 kernel, and the Mathlib definitions that statements mention (rationals, reals,
  `Nat.clog`, matrices as functions, …).
* Axioms: only `propext`, `Classical.choice` and `Quot.sound`.  The last section lists which theorem
  uses which.  There are no own axioms, no `sorry`, no `native_decide` and no `bv_decide`.
  `decide +kernel` is used for concrete runs (refutations, examples) and for whole finite tables.
* The hand transcription of the C code into the definitions under `lean/Verif/Model`.  Each
  definition cites file and lines in `/repo` and says what was simplified.  Nothing checks the
  transcription by machine.  The bit tables in `ArithTables` and `HuffTables` were copied by script.
* The English reading of each statement.  `seeded/LOG.jsonl` records wrong programs that were put in
  place of the model, and which theorems noticed.

## Modelling conventions

* `WORD32`, `UWORD32`, … are `Int`/`Nat` with explicit wrap or explicit undefined behaviour.  Signed
  overflow of `+ - *`, negative or too large shift counts, indexing outside an array and
  float-to-integer casts out of range are the distinct outcome `ub`.  `longjmp` on short input is the
  distinct outcome `jump`, an error return is `err code`.
* Conversions to narrower signed types wrap, `>>` of negative numbers is arithmetic, and `<<` of
  negative numbers wraps.  The C standard leaves these open; gcc and clang do this.
* What a function has written before an error return is not modelled, except where a caller drops
  the error.  There the model returns a flag together with the state.
* Reads of uninitialised memory are modelled by an arbitrary previous value, as an argument.
* Bit stream parsers are programs (`Prog`) over five primitives of the bit reader (read, peek, skip,
  ask how many bits remain, fail).  A program has two interpretations: a concrete one that runs the
  byte and bit pointer code of `ia_core_coder_bitbuffer.c`, and an abstract one on a list of bits.
  C07 relates them for all programs, so parser properties are proved on lists of bits and hold for
  the pointer code.
* Sub-parsers that are not modelled are arbitrary programs, passed as arguments.  Theorems quantify
  over them, with hypotheses where needed.
* Signal processing is modelled over the rationals.  The peak limiter has every rounding as an
  argument `rnd`; `pow` and other library functions are arguments.  The scene displacement is over
  the reals, without rounding.  Coefficient sums of the multichannel tool are unbounded integers.
* Loops with a counter are recursions on the counter.  `while` loops have a fuel argument, and it is
  shown that it is never used up, or that its value does not matter.

## Layout

* `Verif/Prelude` outcome monad, C integer helpers.
* `Verif/Model/*` model of the code, with citations.
* `Verif/Spec/*` small independent specifications.
* `Verif/Proofs/*` helper lemmas: `Safe` (no undefined behaviour, for every input), `Post` (what holds
  of a result), `Same` (two programs read the same bits), `Fields` (reading back what was written).
* `Verif/Props/*` the property theorems with non-vacuity examples.

A property that is false has a theorem `…_refuted` with the negation of the claim and a concrete
witness, and theorems `…_partial` for what does hold.  Its status in `MANIFEST.json` is `partial`.

## How each property is approached

| id | modelled | how |
|----|----------|-----|
| C01-C03 | read, show, skip over pointer state | refinement to a list of bits |
| C04, C05 | writer, escape writer and reader | round trip, induction on fields |
| C06, C11 | 32 bit reads | refutation with witness, partial for aligned use |
| C07 | all reader programs | induction on programs |
| C08-C10 | MHAS packet walk | recursion on remaining bits |
| C12-C19, C51-C53 | scene information, earcon, PCM packets | invariants of the parsers, round trips, refutations where the code wraps or overruns |
| C20-C23, C54 | create, delete, configuration | state machine over all allocator behaviours |
| C24 | sampling ratio | decision table |
| C25, C26, C101 | execute wrapper | case analysis over inner outcomes |
| C27-C29 | PCM output | exact arithmetic on rationals, induction on frames |
| C30, C55, C56 | pre-roll | bounds from field widths, induction on access units |
| C31-C34, C57, C58 | arithmetic decoder | interval invariant, encoder/decoder bisimulation, termination measure, sorted table search |
| C35-C38 | basic operators | exact integer arithmetic |
| C39-C41, C59-C64 | object metadata | invariants over frames, round trips, refutations |
| C42-C44, C65, C100 | peak limiter | invariants over histories of samples, refinement to a windowed maximum |
| C45, C67-C71 | multichannel coding tool | bijection by induction, orthogonality of the rotation, array invariants |
| C46, C49, C66 | variable length codes | prefix-code correctness for every table of the kind |
| C47, C78-C81, C102 | interaction data and local setup | parser invariants, round trips |
| C48, C82, C83 | scene displacement | refutation and orthogonality over the reals |
| C50 | configuration change | decision logic |
| C72-C77 | loudspeaker layouts | whole tables, parser invariants, non-interference between states |
| C84-C99 | 3D audio configuration | parser invariants, round trips, non-interference, `Safe` for all payloads |
| C103, C104, C105 | `Model/ExtElem.lean` follows the extension element loop of one access unit byte by byte with the payload buffers as state; the claims are about every list of access units. Refutations: an element that is absent, lengths that add up, fragments that are never joined. |
| C106-C110 | `Model/DrcGain.lean` follows a frame of the gain decoder: payload parser, node reservoir, gain buffer. The buffer is related to the polygon through all nodes of all frames by an invariant over executions; safety by an invariant over accepted payloads. Refutations by concrete payloads at 48 kHz. |
| C111, C112 | round trip of the payload parser by induction on nodes, bands and gain sets, using the code tables of C46. |
| C113 | `Spec/Spectral.lean` is an encoder written from the standard, with the tables as a parameter; the decoder is shown to stay in step with the symbols of the encoder, using the round trip of the arithmetic coder (C32) and of the signs (C58). |
| C114, C115 | postconditions of the metadata parser for every input, and a concrete pair of frames for the refutation. |
| C116, C117 | `Spec/DrcLoud.lean` is an encoder for sets of loudness information; round trip by induction on entries and measurements, bounds by a count of the bits each entry takes. |
| C118-C122 | `Model/DrcConfig.lean` follows the parser of DRC configurations. One invariant (`Meets`, `Proofs/Meets.lean`) carries both the absence of undefined behaviour with larger arrays and the postcondition `ConfigOk`; C119-C122 are read off it. Refutations by concrete payloads. |
| C123 | `Spec/DrcConfig.lean` is an encoder for coefficients; round trip by induction on bands and gain sets. |
| C124-C127 | postconditions and runs of the configuration parser; C99 for whole configurations by a Hoare logic for short inputs (`Proofs/Within.lean`) and induction on the sequence of configurations. |
| C128, C129 | `Spec/DrcInstr.lean` is an encoder for instructions; the parts of the parser are run on its output, the parts that read nothing are shown not to (`Silent`). C129 is a postcondition of the parser. |
| C130-C132 | `Model/DrcSel.lean` follows loudness control and DRC set selection; `Spec/DrcSel.lean` says which loudness information is preferred and which candidate the rules leave. Postconditions by a Hoare logic for loops (`Proofs/Sel.lean`). Refutations by concrete requests. |
| C133, C134 | absence of undefined behaviour by an invariant over the loops; independence of uninitialised arrays by a relational logic (`Rel`) between two runs. |
| C135-C144 | the rules of the selection and where active sets come from, as postconditions of the same model. Refutations by concrete configurations. |
| C145-C153 | `Model/DrcApply.lean` follows the set-up of the gain decoders for active sets (weights, filters, memory) and how gains are applied to samples and subbands; `Spec/DrcApply.lean` says what a set does to a channel and what makes a set fit a decoder. Set-up is proved to give sets that fit, from which processing is proved to be as specified (`Proofs/Does.lean` for total loops). The filters themselves are arbitrary functions. Refutations from coded configurations. |
| C154-C156 | `Model/Avq.lean` decodes lattice points as the code does; `Spec/Avq.lean` defines the lattice, the codes and distances. Base codebooks: the tables are checked as a whole by evaluation in the kernel, permutations of a leader by induction over ranks. Voronoi extension: the saturating operations are shown to be exact, the search is shown to be optimal by convexity in each coordinate. Refutations by concrete codes. |
| C157-C166 | `Model/Lpd.lean` follows the parser of a frame of the linear prediction domain and the computation of line spectral frequencies. A relation between programs and codes (`Reads`, `Proofs/Reads.lean`) says that a program accepts exactly the codes of a relation; it is composed along the parser. `Spec/Lpd.lean` and `Spec/LpdFrame.lean` define the codes, what filters stand for, and divisions. C158 is a Hoare logic in which reads deliver anything (`Proofs/Always.lean`); C160 is an invariant over executions. Refutations from coded bits. |
| C167-C173 | `Model/Acelp.lean` follows the decoding of pulses, lags, the adaptive part and gains and the filters. Codes of pulses are turned into lists of signed places; sums of such lists have a size, and every vector of a size is the sum of a list without opposite pulses, from which an encoder is built by halves and quarters. Uniqueness of codes of one and two pulses by an encoder that is checked for all codes in the kernel. Interpolation and filters by induction over entries, over rational numbers. Refutations by concrete fields at accepted rates. |
| C174-C177 | `Model/Scf.lean` follows the table decoder of codewords, the word of 32 bits that is moved along the input, and the loops over groups and bands; a second version of the loops reads bit by bit. The word is shown to be a window of the input, read as one large number (`Proofs/Scf.lean`), from which the two versions are shown to agree. `Spec/Scf.lean` says how scale factors are coded. Refutations by concrete inputs. |
| C178-C189 | `Model/Fd.lean` follows the parser of windows, noise shaping, stereo flags and prediction data of a pair up to the data of the channels; `Spec/Fd.lean` says how they are coded, and `Reads` relates the two; band tables are checked as a whole in the kernel. `Model/FdMix.lean` follows the loops of stereo processing over rational numbers; `Spec/FdMix.lean` says to which group and band a bin belongs, what the mirrored filter is and what an encoder makes. Refutations from coded bits. |
| C190-C195 | `Model/Fdp.lean` follows prediction of harmonics in both cores; `Spec/Fdp.lean` says by the distance of a line to the nearest harmonic which factors its estimate has. The running state of the code is related to the nearest harmonic by induction over lines; sequences of frames by induction with limits of the memory as invariant. Tables of spacings, factors and bands are checked as a whole in the kernel. Refutations by concrete frames. |
| C196-C198 | `Model/InvQuant.lean` follows the loops of inverse quantisation and noise filling over groups, bands, windows and lines over rational numbers; `Spec/InvQuant.lean` says which group and band a line is in and what its value is. Induction over each loop with a statement per line. C197 relates two runs through C196. |
| C199-C204 | `Model/Tns.lean` follows the recursion from reflection to filter coefficients, the recursive filters in place and the choice of lines over rational numbers; `Spec/Tns.lean` says what a prediction residual is. Filters are related to residuals by induction over lines and are unique; coefficients are limited by binomials by induction over the order. C200 and C204 start from accepted bits. Sequences of parts by induction. Refutations by concrete filters. |
| C205-C207 | `Model/FdStream.lean` follows the mapping of contexts between window lengths, the loop over windows and the order of the parts of a channel; `Spec/FdStream.lean` says how blocks and channels are coded. Each block is decoded by the theorem on single spectra (C113), and leaves a context that the next block can start from (induction over blocks). The parts of a channel are decoded by the theorems on each part (C175, C178, C180) in sequence. Refutation by a concrete channel. |
| C208-C219 | `Model/Igf.lean` follows the set up of gap filling, the cut into tiles, the choice of source lines, the coded levels and the data of tiles; `Model/IgfFill.lean` the filling of a channel. `Spec/Igf.lean` and `Spec/IgfFill.lean` say what a cut is, how levels and tile data are coded and what energy a band has. The cut by induction over its loop; ranges of bands by evaluation over all tables and all indices (a finite table). Levels by the theorem on the arithmetic decoder (C32) and induction over bands and windows. Tile data by the calculus of readers. Filling by induction over lines, bands, windows and groups, with exact numbers. Refutations by concrete configurations, bits and spectra. |
| C220-C235 | `Model/Hoa.lean` follows the configuration and the frame of higher order ambisonics with the sizes of all arrays; `Model/HoaTables.lean` has the code words; `Model/HoaSide.lean` follows what a frame becomes: predictions, vectors with what is kept of them, gains and tables of channels. `Spec/Hoa.lean` says how a configuration is coded and what a code word is. Configuration and code words by the calculus of readers, tables as a whole in the kernel. Safety by an invariant of all sequences of frames. Vectors by induction over their elements. Refutations by concrete configurations and frames, all accepted by the decoder. |
| C236-C239 | `Spec/HoaChannels.lean` says how the channels of a frame are coded; frames are cut into the flag, the channels and the rest by the calculus of readers, the state by induction over the channels. Independence of the past by translating a code for one past into the code for another with the same bits. `Spec/IgfNoise.lean` counts lines that take noise; the generator is followed by induction over lines, bands, windows and groups. |
| C240-C248 | `Model/HoaSyn.lean` follows the sum of ambience, directions, vectors and predictions with all that is kept between frames; `Spec/HoaSyn.lean` says what windows that add up, signals in one channel and combinations are. Each part is a sum over channels of which all but one vanish for a signal in one channel; lists kept from the frame before are related to its channels. Linearity part by part. Refutations by sequences of coded frames, evaluated in the kernel. |
| C249-C255 | `Model/Ltpf.lean` follows the long term post filter with its scratch memory in one piece, so that lags without kept samples read what the code reads. `Spec/Ltpf.lean` says what a filtered signal without beginning or end is and what a frame does to it; samples of a part are a fixed point of the memory after it, states follow signals by induction over frames. Limits from sums of the taps, causality by comparison of two runs, the recursion by the inequality between products and squares. |
| C256-C260 | `Model/Resamp.lean` follows the resampler with its three memories and the stage of loudness normalisation and output. `Spec/Resamp.lean` says what is made of a signal without beginning or end; states follow signals by induction over frames. The response to a single sample is evaluated over the whole table in the kernel. |
| C261-C270 | `Model/ExtRend.lean` follows the writers of the interface to an external renderer as lists of fields. `Spec/ExtRend.lean` is a reader that knows only the syntax. `Writes` (`Proofs/ExtRend.lean`) ties a writer to a reader and composes over loops; the bit writer itself is C04. Flags are followed over all frames by an invariant. |
| C271-C273 | `Props/HoaMany.lean`: the loop over entries is a sum by induction; the mask and the data of vectors by an invariant over the loop of elements; the shared array of indices by a frame of two vectors. |
| C274-C286 | `Model/DmxMtx.lean`, `Props/DmxGains.lean`, `Props/DmxPairs.lean`, `Props/DmxMtx.lean`, `Props/DmxEq.lean`: downmix matrices of the stream; truncated binary codes, the table of gains as a set of fractions, pairs as a partition by induction over the loop, the elements by an invariant per element, two runs related by a logic of agreeing programs, equalisers by postconditions. |
| C287-C288 | `Props/LtpfChange.lean`: the Levinson recursion by induction over the order, with the reflected sum; the transition of the post filter as the deviation from the new filter. |
| C289-C293 | `Model/ObjRen.lean`, `Props/ObjPan.lean`, `Props/ObjRamp.lean`: inverse matrices by Cramer's rule, the winner among the triangles has no gain below zero when the object is in one of them, ramps of gains as lines. |
| C294-C295 | `Props/ObjDmx.lean`, `Props/ObjSilent.lean`: columns of parts of one are kept by squaring the matrix; the matrix is never set without imaginary loudspeakers. |
| C296-C300 | `Model/ObjLayout.lean`, `Props/ObjLayout.lean`: quick sort, filled gaps as intervals that compose, the loop over a list that grows. |
| C301-C302 | `Props/ObjSubset.lean`: the four nominal positions and the quadrilateral in azimuth and elevation, seen from the front or the back. |
| C303-C306 | `Model/HoaRen.lean`, `Props/HoaNfc.lean`: the filters over the reals as lists of samples; geometric signals with matching memory show the response; poles by the conditions on the coefficients; every channel gets the order of the content. |
| C307-C308 | `Props/HoaNfc.lean`: rows of the matrix times the channels at one time; levels. |
| C309-C314 | `Model/Mp4.lean`, `Props/Mp4.lean`: boxes written by separate encoders, read item by item into tables; tables that are too small. |
| C315 | `Props/ObjPan.lean`: the search as a minimum over the triangles. |
| C316-C318 | `Props/ObjSpread.lean`: the directions by their parts along three orthonormal vectors. |
| C319-C322 | `Model/HoaPerm.lean`, `Props/HoaPerm.lean`: the greedy assignment by counting the loudspeakers that are left; the permutation matrix row by row. |
| C323-C329 | `Model/Imdct.lean`, `Props/Tdac.lean`, `Props/Imdct.lean`: aliased halves that cancel, block by block; the angles of the modulations added; orthogonality by a telescoping sum. |
| C330-C333 | `Model/Imdct.lean`, `Props/ImdctMixed.lean`: the two halves of the spectrum that the modulation packs into one, summed in pairs; the sine transform by turning the spectrum round. |
| C334-C336 | `Model/Fac.lean`, `Props/Fac.lean`: the block with what is there before the FAC signal is added put in the place of the signal, then as for C324; the loops of the long block one by one. |
| C337-C340 | `Model/Bpf.lean`, `Props/Bpf.lean`: the differences of all subframes as one signal, of which the buffers hold a part; induction over the subframes. |
| C341-C344 | `Model/Bpf.lean`, `Props/LpdBpf.lean`: the differences of C337, which are 0 from the last gain on; of two memories that agree in one channel the differences are equal. |
| C345-C350 | `Model/HoaSvd.lean`, `Props/HoaSvd.lean`: invariants of both loops of the sort; matrices of Mathlib for the decomposition and the pseudo-inverse. |
| C351-C355 | `Model/HoaPos.lean`, `Props/HoaPos.lean`: the argument of complex numbers of Mathlib for `atan2`; induction over the positions for the loops. |
| C356-C359 | `Model/HoaPan.lean`, `Props/HoaPan.lean`: complex matrices of Mathlib; the equations from real and imaginary parts; the cost of other gains by completing the square. |
| C360 | `Model/HoaPanMem.lean`, `Props/HoaPanMem.lean`: addresses of the matrices in the scratch memory; later calls write behind earlier matrices. |
| C361 | `Model/ObjSortIdx.lean`, `Props/ObjSortIdx.lean`: induction over the loop of the split, then over the depth. |
| C362-C363 | `Model/ObjHull.lean`, `Props/ObjHull.lean`: counts of edges in lists of triangles; the boundary of the visible triangles has no ends. |
| C364-C365 | `Model/ObjProj.lean`, `Props/ObjProj.lean`: volumes of tetrahedra as polynomials; the sign of the projection is that of the volume. |

## Disagreements between the code and the properties

| property | disagreement |
|---|---|
| C06 32-bit fields can be read at any bit position | refuted: the general reader shifts by a negative count for 32 bits, the dedicated reader is only exact on byte boundaries (C06_read32_aligned_partial) |
| C11 Escape-coded packet labels are accepted | refuted: a 32-bit label escape is undefined behaviour at every alignment; labels up to 257 are proved |
| C14 Every signalled group member is kept | refuted for 128 members (8-bit wrap to -128, list left in the stream); proved for 1..127 |
| C17 Earcon tables cannot be overrun | refuted for the announced count 16 (17 entries stored); proved for all other counts |
| C18 PCM data packets: frame size look-up stays in its table | refuted: explicit sizes index the table, sizes 2048/4096 overrun the sample table; proved for 768 and 1024 |
| C21 Deleting twice is harmless | refuted: delete does not clear the count, the second call frees every block again; harmless only if nothing was allocated |
| C22 Creation reports invalid configuration values | refuted: create overwrites the error of the configuration step, its result does not depend on the configuration; the step itself reports all too large values |
| C23 Configuration values in effect are always in range | refuted for negative layout indices and presets below -1; proved for all other requests |
| C24 Resampling ratio matches the sampling rates | refuted for stream rates that are not listed; proved for the eight listed rates and all output rates |
| C25 Every call makes progress and never over-consumes | refuted for empty input and for returns before the bit buffer is set up; proved otherwise |
| C28 32-bit PCM output never overflows | refuted: every sample at or above full scale is clipped to 2^31, which does not convert; proved below full scale |
| C32 Arithmetic decoding inverts arithmetic encoding | refuted: a code word that ends with the input can be rejected (padding value 0 is taken for exhausted input); proved when at least 15 bits follow |
| C38 64-bit saturating operators return the clamped exact result | add, multiply and 64-to-32 proved; refuted for subtraction (overflows, undefined, whenever saturation would be needed) |
| C39 Decoded object positions are always in range | refuted: only the entries of the first sub-frame are limited; proved for frames with one sub-frame |
| C40 Differential object metadata never overflows | refuted: the sample counter overflows after 2097152 frames, an azimuth after 8421505; proved for streams of up to 2000000 frames |
| C41 'Keep' flags repeat the previous frame's values | refuted: the flag use_predefined_sector is not kept; proved for everything else |
| C47 Interaction data refer only to existing groups | refuted: the error of the inner function is dropped, and after one known identifier any other is accepted.  Proved: when the inner function reports no error the first identifier is known. |
| C48 Scene rotation acts on the object position | refuted: the object position is never read.  Proved over the reals: the matrix is a rotation, so the result is at twice the distance in the displacement data. |
| C50 Configuration change is detected exactly | refuted for packets above 768 bytes (overrun) and after an empty configuration; proved otherwise |
| C52 Presets are checked against the groups they reference | refuted: the permission looked up is that of the group at the preset's own table position; round trip proved under that permission |
| C53 Known scene data sets occupy exactly their declared length | refuted for L >= 32768 (16-bit wrap) and for contents longer than declared; proved otherwise |
| C54 Creation writes only inside the blocks it was given | refuted for an allocator granting exactly the size asked for; proved if it grants size + alignment bytes |
| C55 Pre-roll output is discarded exactly | refuted for outputs of different sizes; proved for equal sizes |
| C56 Change of the pre-roll configuration is detected exactly | refuted: zero padding hides a difference in length; proved for equal lengths |
| C57 Spectral decoding has no undefined behaviour | refuted: a+b+1 overflows after 30 escapes; proved when no tuple has more than 28 escapes |
| C58 Sign bits give every coefficient its sign | refuted for magnitudes from 2^30 on; proved below |
| C60 Objects are rendered with the most recent metadata | refuted when the first sub-frame of a frame has no metadata; proved otherwise |
| C61 Differential metadata refer to the most recent metadata | refuted with several sub-frames per frame; proved for one, uniform spread, no dynamic priority |
| C62 Exclusion sectors take the same bits on every platform | refuted for the macros of the Windows headers; proved where fmin and fmax are functions |
| C63 Absolutely coded object metadata are decoded as written | intra coding proved; refuted for absolutely coded dynamic data with three spread values or dynamic priority, proved without these |
| C64 Intra-coded metadata go to the objects of their sub-frame | refuted for a fixed uniform spread outside the first sub-frame; proved otherwise (uniform spread) |
| C66 The DRC delta-time table fits its array | refuted: at rates of 1000 to 2999 Hz the table needs 1025 entries and the array has 526.  Proved for all higher rates; lower ones are rejected. |
| C68 Rotation angles are table indices | refuted: a payload that ends inside a codeword decodes as -1, and the index 0 of the previous frame becomes -1, read before the tables.  Proved for frames that leave 11 bits unread. |
| C70 The downmix of a box's output is the downmix it was given | refuted: with coefficients per band and an even number of scale factor bands the computation always ends in an error.  Proved for odd numbers and for one coefficient for the whole spectrum. |
| C71 Stereo filling uses the previous spectrum of the same channel | refuted for two signal groups: spectra are kept by index in the group but used by channel.  Proved for a single group beginning at channel 0. |
| C73 A speaker configuration yields the geometry it names | refuted for lists of loudspeakers and for layouts without geometry.  Proved for named layouts. |
| C75 Loudspeaker descriptions depend on the payload only | refuted: with azimuth 180 the direction bit is read or not depending on the old direction.  Proved when the old direction is not 1. |
| C76 Loudspeaker angles are in range | refuted: the error for an azimuth out of range is dropped by the caller.  Proved for descriptions without error. |
| C77 A symmetric pair is mirrored | refuted: the signed angle is copied unchanged.  Proved: elevation, class and LFE flag agree and the direction is flipped. |
| C78 Interaction data stay inside the scene tables | refuted: nine groups read nine of eight presets.  Proved for up to eight groups or no scene. |
| C79 Interaction values are kept as coded | refuted: WIRE identifiers and zoom fields are cut to 8 bits.  Proved for values below 256 without scene and signature. |
| C80 Local setup stays inside the loudspeaker arrays | refuted: the 16-bit count is not checked.  Proved for up to 24 loudspeakers, apart from the undefined behaviour of the speaker configuration (C73). |
| C81 Local setup values | refuted: gains are read with one bit, so only -32 and -31.5 dB can be sent.  The ranges are proved for up to 24 loudspeakers. |
| C82 Cartesian to polar conversion inverts polar to Cartesian | refuted: azimuth is not written and elevation is overwritten with it.  Proved over the reals: the distance is recovered. |
| C83 A zero scene displacement changes nothing | refuted: every object moves to one place.  Proved over the reals: the angles stay in range. |
| C85 The declared profile level is the one that is checked | refuted: a compatible level elsewhere in the payload replaces the declared one, so a level 1 stream with 6 objects is accepted; holds without a list of compatible levels |
| C86 A new configuration replaces the old one | refuted: after audio scene information the structure is not cleared, and a stale compatible level is used; holds when no scene information was read before |
| C87 Baseline level 3 with more than 16 signals is flagged | refuted: the flag is never set at the end; it is clear for every accepted configuration |
| C89 Configuration extensions end where their length says | refuted: extensions that need more bits than announced are accepted; holds for the types whose length is used |
| C90 At most one loudness and one pre-roll element | refuted for dynamic range elements: the counter is a local variable set to 0 on entry; holds for pre-roll because it must be the first element |
| C91 Group information is read for every group | refuted: the loop reads one entry more than there are groups; the entries themselves are read right |
| C92 Switch groups need element lengths | refuted: the check uses the switch groups of the scene before; holds when that scene had switch groups |
| C93 Downmix configurations are read as sent | refuted: 2056 bits of matrix overflow 256 bytes; round trip for matrices up to 2048 bits; identifiers and layouts of every accepted configuration are within their ranges |
| C94 Object metadata configuration keeps the flag of each object | refuted: flags of 25 objects are written to an array of 24, for whole configurations too; round trip up to 24 objects |
| C95 Unsupported object metadata frame lengths are refused | refuted: the error is dropped and the element accepted with the old frame length; an unsupported length is never stored |
| C97 Every decoded channel has its own output | refuted: a shifted stereo pair loses its second channel, and a 25th channel overwrites the first; identity for unshifted elements of up to 24 channels |
| C98 The channel map points to existing outputs | refuted: the shift check never fails, and 14 channels with a shift of 15 index position 29 of 24; holds without shifts |
| C99 Reading a configuration stays inside the decoder's tables | refuted by 25 objects and by long downmix matrices; every other part is read inside the tables, and so are whole configurations of less than 256 bytes with at most 24 objects, one after the other |
| C101 A decode call that fails reports no output | refuted: after an error return the count of the last frame is reported again.  Proved: 0 after a bit buffer jump, and exactly the bytes written after success. |
| C102 Groups that ask for a position or gain get one | refuted: the caller drops the error, and the permissions looked at are those of the group at the same place, not with the same identifier.  Proved for the group parser and the group at the same place. |
| C103 Extension payloads belong to the access unit | refuted: only the lengths of elements 0 and 1 are cleared, so an absent element with a higher index is given its last payload again, and the lengths of dynamic range control payloads add up.  Proved for elements 0 and 1 and for present elements of other types, one access unit per call. |
| C104 Extension payloads stay inside their buffers | refuted for dynamic range control: after k calls the length of an element with index 2 is k times the payload.  Proved: all writes are inside the rows, and the lengths of all other elements are at most 1536. |
| C105 Fragmented extension payloads are put together | refuted: the start and stop flags are skipped and every fragment replaces the one before.  Proved for payloads in one piece. |
| C107 Gain payloads never lead outside the gain buffers | refuted: when a node time more than two frames away is refused, the times read so far stay, and the next frame without a payload writes outside the gain buffer.  Proved for all sequences of accepted payloads.  Payloads refused in other ways leave nodes that are not modelled. |
| C109 Frames without a gain payload hold the last gain | refuted: the nodes of the last payload are played again in every frame without one, so the gain returns to the first of them.  Proved when all nodes of the last payload have the same gain. |
| C110 Accepted gain payloads can be applied | refuted: after a frame with a node at its end a payload with nodes after the end of its frame is accepted, but its gains are never applied and the frame fails.  Proved: gains can be applied if and only if the node times rise strictly. |
| C112 Extensions of a gain payload are skipped | refuted: two extensions are always refused.  Proved for one. |
| C113 Spectra are decoded as coded | missing: magnitudes of 2^30 and more, for which the signs are lost (C58), and codes that end within 15 bits of the end of the input, for which C32 is refuted. |
| C114 Fixed metadata of objects keep their value | refuted: absolutely coded dynamic metadata set fixed parameters to 0, and differentially coded ones do so with a fixed spread.  Proved: fixed parameters take no bits, and in differentially coded metadata position and gain keep their values. |
| C116 Loudness information is decoded as coded | refuted: an album entry makes the programme entry of the same number one about the whole programme.  Proved without albums; with albums for the rest of the entries. |
| C117 Loudness information stays within its arrays | refuted: 37 entries.  Proved: 63 elements suffice for every payload, and payloads of less than 697 bits stay within 36. |
| C118 A DRC configuration stays within its arrays | refuted: 25 gain sets; 31 instructions with the two that stand for no DRC.  Proved: 63 gain sets and 33 instructions suffice for every payload. |
| C121 Ducking of other channels uses one gain sequence | refuted: gain sets 0 and 5.  Proved for gain sets after the first one. |
| C122 Gain modifiers reach the bands they are coded for | refuted: two sets of coefficients at one location.  Proved when locations are distinct. |
| C123 DRC coefficients are decoded as coded | refuted: a band that starts at subband 128 is taken to start at -128.  Proved for starts below 128. |
| C124 Groups without group information have default priorities | refuted: after audio scene and group information the priorities of the old configuration stay.  Proved when the flag for group information is clear after the configuration. |
| C126 Channels are converted when they need it | refuted without configuration extensions, in both directions.  Proved with extensions, as an equivalence. |
| C127 Layouts of channel groups are compared with their own channels | refuted: the channels of all groups so far are counted.  Proved with that number, which is right for the first group. |
| C130 The loudness of a set is the preferred measurement for it | refuted: with DRC off the set identifier -1 is overwritten with 0 before it is tested, so that group 0 is preferred to larger groups. Proved for distinct requested groups and at most one requested preset, unless DRC is off and group 0 is requested. |
| C131 The output has the target loudness | refuted for the same reason as C130; proved under the hypotheses of C130 and for values in the coded range. |
| C132 The gain applied is the gain of the selected set | refuted: the gain of every candidate is written to the same place, so that the last candidate's gain is applied. The gain applied is proved to be 0 or the gain for some loudness information. |
| C133 DRC set selection stays inside its tables | refuted: the seventeenth entry for the same downmix and set is written behind an array of sixteen. Proved for up to sixteen entries, at most one requested preset, up to thirteen instructions of the stream and gain set indices inside the table. |
| C134 DRC set selection is a function of its inputs | refuted: with a downmix requested and no peak level for it, the flag behind the peak levels written is read. Proved if the base layout is requested. |
| C135 A DRC set within the peak limit is selected if there is one | refuted: the pre-selection counts the candidates within the limit but then takes as many from the beginning of the unfiltered list. Proved is which candidate the final selection takes of those it gets, if all sets for presets are for the same preset and values are in the coded range; in this the rule for the target loudness is reversed in the code: if only some meet it those that do not are kept. |
| C137 At most three sets are active, each once | refuted: a fading set with another effect is active as fading set and as selected set. The rest is proved. |
| C139 With DRC off only fading and ducking sets are active | refuted: the set for no DRC gets identifier 0; the first set with that identifier, which can be one of the stream with a dependency, is selected. Proved if the sets of the stream have positive identifiers. |
| C140 Peak levels are those of the signal played | refuted: the level of an entry that does not match is written to the first place and stays there. Every level is proved to be 0, a limiter target, or one of loudness information for the downmix or the base layout and for the set or any set; and it is a limiter target or of information for the same group or preset unless it is the only one. |
| C141 Active sets are for the requested groups and presets | refuted: when a preset matches, sets for other presets are kept. Proved with DRC on if all sets for presets are for requested ones. |
| C142 The selected set suits the request and the decoder | refuted: the bands of the set depended on are only checked for as many channel groups as the selected set has. Everything else is proved for moderate levels, and the bands of the selected set. |
| C143 Sets that active sets depend on are active | refuted: if the output is above the peak limit and no effect is asked for, chains are not noticed. Proved for the selected set: what it depends on is active, and within the peak limit depends on no other. |
| C144 If a set fits the request the selection succeeds | refuted: when the peak limit leaves fewer candidates, the first ones of all candidates are taken; if these are for groups that were not requested none is left. Proved without loudness normalisation if all sets are for all groups, all that sets depend on is there, and the set that fits depends on no other. |
| C145 Band weights of a subband add up to one | refuted for borders given as subbands: they need not ascend, and those above 127 are stored as negative numbers. Proved for crossover frequencies, whatever they are, and for borders that are stored without change of sign and do not descend. |
| C148 All channel groups have the same phase | refuted: a bank that needs no all-pass filters keeps those of an earlier configuration. Proved for banks without filters. |
| C149 Filters are set up inside their tables | refuted: there is room for 9 all-pass filters in a bank and for 8 banks, and neither is checked. Proved for at most 7 groups, counting channels in none as one, that need at most 9 all-pass filters each. |
| C150 Every active set is handed to one gain decoder | refuted: if the configuration, or an earlier one, has a set for a certain downmix then active sets for any downmix are handed to neither decoder. Proved for a first configuration without such a mixture. |
| C151 A set that is set up is applied as it should be | refuted: gain sets without bands are accepted, and there are fewer rows than channels. Proved for the first gain decoder, that is sets for the base layout without other downmixes, whose gain sets have bands. |
| C152 Memory of gain decoders is in the persistent buffer | refuted: three sets of 16 groups each need 8328 bytes more than there are. What is handed out is computed exactly, and fits for at most 47 gains and 16 rows, or 33 gains and 64 rows. |
| C153 Gain decoders are set up inside their tables | refuted: output layout 13 has 24 loudspeakers and there is room for 16. Proved for the first decoder set up, at most 16 channels and at most three sets of at most 15 groups of one band. |
| C154 Codes of lattice points are decoded to points of the lattice | refuted for large codebook numbers, which nothing limits: coordinates are cut off from 59 on, and from 67 on words are shifted by 32 bits. Proved for codebooks up to 52; 53 to 58 are left open. |
| C155 No two codes of a codebook stand for the same point | refuted for large codebook numbers, where coordinates are cut off. Proved for codebooks up to 52, other than 1, which has one point and which is never coded. |
| C156 Voronoi indices stand for the point nearest to the middle | refuted: squares of distances are cut off, and from 16 bits on the farther of two points can be taken, as for indices that are all 0. Proved for codebooks up to 32, that is up to 14 bits for each Voronoi index. |
| C158 The indices of filters stay inside their array | refuted: with codebook number 69 the parser reads a field of 33 bits, for which the reader shifts a word by 32 or more. The bound of 109 entries is proved for all values of all fields, and met by a frame. |
| C160 Line spectral frequencies stay at least 50 Hz apart and below half the sampling rate | refuted for the upper limit: with row 0 of the tables and a code of codebook 7 the last frequency is above 6400, and then the weight for the next filter is the root of a negative number. The separation is proved for all sequences of accepted frames, over exact numbers. |
| C163 Numbers for the aliasing cancellation are lattice points and stay inside their arrays | refuted: with codebook number 69 fields of 33 bits are read. The rest is proved for accepted frames, in which fields have at most 24 bits. |
| C168 The vectors that can be coded are those with the right number of pulses on each track | refuted for modes 3 to 5: of three or four pulses on a track opposite ones at one place cancel each other; in mode 5 the vector can be zero. pulses_iff says exactly which vectors can be coded in each mode, including those; in the other modes the number is as claimed. |
| C169 No two codes stand for the same pulses | refuted for modes 3, 4 and 5 by two codes each; proved for the others. |
| C170 Pitch lags stay within their limits and the excitation buffer is long enough for them | refuted: at 32000 Hz, which is accepted, a lag of 537 reads before the start of the buffer; at 8000 Hz a lag exceeds the largest one. Proved for rates (of the linear prediction part, half the rate for full band) from 8095 to 24282. |
| C171 The adaptive part of the excitation is the past excitation, interpolated | refuted: at 2000 Hz, which is accepted, a lag of 5 makes the result depend on what was in the buffer after the past excitation. Proved for lags of at least 17, and thereby for rates from 8095 to 24282. |
| C176 Truncated scale factors are reported | refuted: with 32 bits left a third codeword begins behind the input and the word is shifted by more than 31 bits, which is undefined; the test of the caller asks for three bytes only. Partial: with 19 bits left for each band of each group nothing is undefined. |
| C177 Scale factors are between 0 and 255 | refuted: only the upper limit is tested; coded differences lead to the scale factors -7 and -54, which are accepted. Partial: none is above 255 and every window has one for each band. |
| C179 A window that does not fit the window before it is rejected | refuted: the error for wrong sequences is never given; a long window after a start window is accepted. Partial: a coded start window is read as start or as stop and start so that it fits; all others are taken as coded. |
| C180 Noise shaping filters are accepted exactly as coded, from band 0 on | refuted: at every sampling rate, a filter over all bands of a long window is refused with an error. Partial: filters that start at band 1 or above are accepted exactly as coded. |
| C181 The header of a pair of channels is accepted exactly as coded | refuted: common noise shaping of another pair than the first is read for the windows of the first channel of the stream; a pair of long windows is not decoded as coded, if that channel has short windows, and is an error, if it has none. Partial: exact for the first pair, and for other pairs with windows of the same length. Masks of gap filling are a parameter of which it is assumed that they are read as coded. |
| C184 Prediction from the imaginary part is refused exactly where it is forbidden | refuted: it is the first element of the configuration that is asked, and stereo filling of the frame before. Partial: exact in the first element after frames without stereo filling. |
| C185 Numbers of bands of both channels of a pair are limited | refuted: 60 bands of the right channel are accepted at 48 kHz and then are the number of stereo bands. Partial: the number of bands of each channel is limited, and that of stereo bands, if the right channel has fewer bands than there are. |
| C189 Prediction leaves bands above the stereo bands unchanged | refuted: with imaginary part the limit is not looked at. Partial: without imaginary part. When parsing alone sets flags, there are none at or above the limit (C183). |
| C192 Coded prediction is used | refuted: with 20 bands at 48 kHz, which end at line 132, coded prediction is not used. Partial: it is used, if the coded bands end beyond the prediction bandwidth. |
| C194 Prediction in parts of linear prediction does not overflow | refuted: value 2^25 at gain 95 overflows a product of 32 bits. Partial: each line gets its estimate, if the scaled values have 32 bits less 65536. |
| C199 Noise shaping of a channel inverts what an encoder with the same filters makes | refuted: with gap filling the start of a filter is limited by the largest band of noise shaping but its end is not, so at 48 kHz with 47 bands a filter from band 45 on is applied from band 40 on, and lines there are filtered twice. Partial: without gap filling, or if there are no bands above that limit. Over rational numbers; sines are an arbitrary function. |
| C202 Noise shaping in parts of linear prediction inverts what an encoder makes | refuted: after eight short windows in one group in any channel, a filter from band 10 on is not applied at 48 kHz, as its start is taken from the table of offsets of that grouping. Partial: if the first group of the last short windows had one window, as the table at the start has. With full band linear prediction. |
| C203 Parts of linear prediction without coded noise shaping are not filtered | refuted: a filter of an earlier frame is kept and applied in a frame whose number of bands is coded for noise filling only. Partial: if no earlier part at the same place had filters. |
| C205 Spectra of successive blocks of any window lengths are decoded with the right contexts | missing: numbers of more than 30 bits (C58) and less than 15 bits after a block (C32). |
| C206 A coded frequency domain channel is decoded to what was coded | missing: numbers of more than 30 bits (C58), less than 15 bits behind a spectrum (C32), filters from band 0 on (C180), and input that fills the buffer (C207). Gap filling data are read by a parameter that is assumed to decode its own code. C206_silent: a channel without coded bands needs no bits behind it. |
| C207 Whether a channel is decoded does not depend on the size of the input | refuted: a silent channel within the last 24 bits of an input that fills the buffer is rejected with 0xFFFF9816, and the same bits in an input that does not fill it are decoded. Partial: C206_channel_partial holds for full inputs if more than 24 bits follow the spectrum. |
| C210 The smallest line copied lies at 1125 Hz | refuted: the smallest line is kept in a byte; at 9000 Hz it is 0 instead of 256, and at a sampling rate of 1 the set up divides by 0. Partial: from 9036 Hz on. |
| C211 Whitening reads lines of the spectrum only | refuted: with the smallest line 0 (9000 Hz) whitening reads three places before the spectrum. Partial: from 9036 to 96000 Hz. |
| C212 Coded levels of bands are decoded | missing: codes within 15 bits of the end of the input (C32), levels of 2^30 and more, more than 64 bands or 8 windows. |
| C213 Decoded levels are numbers | refuted: two coded levels reach 2^140, which is infinite in single precision. Partial: levels up to 255, or 511 with high resolution. |
| C215 Levels for a range of bands that starts at or below the smallest line are rejected | refuted: for short windows the test uses ends of bands of long windows; at 16 kHz levels are accepted although there is nothing to copy from, and each line is its own source. Partial: whatever is accepted has a range above the smallest line in the table that is looked at, which is the right one for long windows. |
| C218 Levels cut off at the end of the input are reported | refuted: with 2 of 8 bits left levels are delivered, bits are skipped backwards and the next bit is read from before the input. |
| C219 A filled band of a linear prediction window gets the coded level | refuted: coded lines are multiplied by the level after their energy was taken, so that a band that has its level gets four times its energy at the level 2. Partial: the energy it has instead. |
| C222 The ambience is not sent with an order larger than that of the signal | refuted: order 6 with ambience up to order 7, 64 coefficients of 49, is accepted. Partial: the number of orders that can be sent is a power of 2. |
| C224 Parsing frames of higher order ambisonics stays inside the arrays | refuted: with order 6 and the last coefficient in a channel, the array of 49 flags is written at 49. Partial: up to order 4, at most 16 channels, orders sent up to that of the signal and at most 31 entries coded per vector, for frames of less than 2^32 - 1 bits. |
| C225 Vectors use entries that their codebooks have | refuted: the index is tested against the codebook of another channel; entry 16 of the codebook with 9 entries is accepted and used. Partial: all channels up to the number of indices use the same codebook; vectors of one entry. |
| C226 The elements of vectors have their coded values | refuted: words and signs are stored at the number of the vector but used at the number of its channel; after an empty channel 192 becomes -1 and the coded 5 becomes -5. Partial: data read with the number of the channel, which is so if channels of vectors are the first ones (C234_order_partial); order up to 5. |
| C227 Prediction uses the gains that were sent for its signals | refuted: gains are read only up to the first missing signal; a coefficient predicted from the second signal only gets the gain 0 and the coded one stays in the bits. Partial: missing signals come last. |
| C228 Frames without directional signals are not predicted | refuted: the flag keeps its value in frames without directional signals, which are predicted like the frame before. Partial: frames with directional signals, and configurations without prediction. |
| C229 Gain exponents of accepted frames are powers that the tables have | refuted: the exponent of channels of the smallest ambience is not limited; 64 with an exception reads behind the table. Partial: the additional channels. |
| C230 A coded gain exponent changes the gain by that power of 2 | refuted: from 7 on without an exception the factor falls instead of rising, and the next frame starts at another value. Partial: up to 6, or with an exception, for tables whose rows end at the powers. |
| C231 Coefficients of the ambience are taken from the channels they are sent in | refuted: coefficient 64 of 49 (C222) is written behind the table. Partial: no coefficient above 49 and none in two channels. |
| C233 All channels of directional signals and vectors are marked as active | refuted: vectors overwrite the directional signals in the set. Partial: only one kind in a frame. |
| C234 Elements of a vector are left out as its own channel says | refuted: whether a vector is new is looked up at the number of the vector instead of the channel; an element that is not to be sent is read. Partial: channels of vectors are the first ones. |
| C235 Vectors are predicted from those of the same channel in the frame before | refuted: values are kept at the channel but found at the number of the vector; after an empty channel the prediction starts from 0. Partial: channels of vectors are the first ones. |
| C237 Coefficients of additional ambience are ones the signal has | refuted: a frame that is not independent gives coefficient 5 of 4. Partial: independent frames, with orders sent up to that of the signal. |
| C242 Directions depend on the frame and the one before only | refuted: entries of the list of directions behind its end stay from earlier frames, and decide whether a direction is faded out. Partial: frames with directions in the same channels. |
| C243 A channel that changes between a direction and a vector is cross-faded | refuted in both directions: from 1 and 1, 7/4 and 15/8 are heard. |
| C247 A prediction is the sum of all signals it names | refuted: signals behind one that is missing are not used. Partial: missing signals last. |
| C248 Factors of predictions have either sign and are below 1 | refuted: all factors are positive and half of them are above 1, as the code is used without the offset of half its range that step and rounding are made for. Partial: below 2, and growing with the code. |
| C250 No output of the long term post filter depends on later input samples | refuted: at 16000 Hz the last code is for a lag of 313 while samples for 306 are kept; what is read before them is the end of the input of the frame, and a sample at place 1018 of 1024 changes output 0; proved for frames whose filters are off or have lags from 4 to the largest one kept |
| C254 The long term post filter does not blow up | proved for frames without a direct change from one lag or gain to another, with the limits of the state kept from frame to frame; missing: changes with the response to the state taken off, which is not limited by the samples of the input in the same way |
| C257 Resampling by a factor is a filter of held samples | refuted for both factors: taps within a group are combined with the wrong neighbours, the response to a single sample is below 0.6 everywhere and has a dip in its middle, while the filter of held samples has one above 0.8; proved for the last sample of each group |
| C259 Loudness normalisation reaches the output | refuted: with resampling the gain is applied to the input of the resampler after it has run, and changes nothing that is put out; proved without resampling |
| C260 Loudness normalisation stays within the samples | refuted: with 24 channels at 3/2 the loop, which runs over as many samples as are put out, leaves the array of decoded samples; proved safe for fewer channels, where it runs into rows of other channels |
| C261 Object metadata reach an external renderer as decoded | refuted for coded values that differences have driven out of the range of their fields: an object raised to 90 degrees is sent below the listener; proved for all others, without audio scene and production metadata, in any buffer that is long enough and in that of 768 bytes up to 28 exclusion sectors |
| C262 Object metadata fit their buffer | refuted: 16 objects with 15 exclusion sectors each need 1203 bytes; proved for up to 24 objects with at most 28 exclusion sectors in all, without production metadata |
| C263 Announced production metadata are sent | refuted for all lengths from 1 to 1023: the element is announced with the length of the payload and nothing of it is written, the case label names another number |
| C264 Diffuseness and divergence reach an external renderer | refuted for all codes but 0: the value divided by 127 is cut to a whole number, so 127 is sent as 1 and all others as 0 |
| C265 Decoded object metadata are announced to an external renderer | refuted: the flags of all objects are stored in the entry of the first one, so no history lets another object be announced; frames without differences leave all flags alone |
| C266 Objects are sent with fixed position and priority of their group | refuted: both are taken from the group whose index is the number of the object; proved when the stream begins with one group per object |
| C267 Groups of channels reach an external renderer as configured | refuted when a group of objects comes before one of channels: the number of signals and the layout are written before other groups are passed over; proved when groups of channels come first, without downmix and production metadata; the numbers of the signals are always sent as 0 |
| C268 Loudspeaker layouts reach an external renderer as configured | refuted for loudspeakers at free positions: a loudspeaker at 30 degrees arrives at 150; proved for layouts given by number or list |
| C269 Downmix matrices reach an external renderer | refuted when a downmix is for another layout than that of the output: it is counted and not written; proved when all are for the layout of the output, with up to 8 matrices each |
| C270 Samples for an external renderer hold the decoded signal | refuted for samples of 2^23 and more, which are converted to 32 bits before they are limited; proved for all samples below 2^23 in size, over exact numbers |
| C272 Vectors leave out coefficients that are sent as ambience | for data read with the number of the channel, which is so if channels of vectors are the first ones (C234_order_partial); order up to 5 |
| C273 Every vector of a frame has its own entries of the codebook | refuted: one array of indices serves all channels; a frame with the entries 5 and 9 in two channels gives both entry 9. Partial: the vector read last |
| C278 Matrices coded against a template are decoded | refuted: the search for the template sets its own copy of the pointer only, so that every matrix coded against a template is given up and, as the result is ignored, the old one kept. Partial: a matrix that is decoded is used |
| C279 The table of gains holds each gain once and fits its array | refuted: from -47 to 22 dB with steps of 1/4 dB there are 278 gains in an array of 274, and the table is made. Members, length and uniqueness proved; it fits for ranges up to 68 dB, or 136 with coarser steps |
| C280 Only gains of the table are decoded | refuted: the bits after the zeros can point behind the table: an old gain, or memory behind the array. Partial: the coding without the table |
| C281 Decoding of downmix matrices does not read memory that was not written | refuted: loudspeakers at free positions are never copied, and channels beyond the layout have old positions; both change the gains decoded. Partial: positions with as many loudspeakers as channels, gains coded without the table, equalisers not more than channels |
| C283 An equaliser configuration is taken or refused by its contents | refuted: the check looks at one channel for each equaliser, so that two equalisers for one channel are refused or taken by old memory. Partial: not more equalisers than channels |
| C284 Run length coded places are read back and stay inside their array | refuted: for 256 places and more a run can end behind the array of 576. Below 256 it stays inside, and with at most 16 inputs and layouts of tables there are at most 240 places; the round trip holds for all |
| C291 The spread of an object has three dimensions | refuted: the spread in height and depth is limited and then not used; C291_height: for every object with a spread in width they change nothing |
| C293 Metadata of objects hold until the next ones | refuted: after a frame with metadata in the first sub-frame only, a frame without metadata uses a stale entry for the second sub-frame; what holds: frames with metadata in every sub-frame, and the first sub-frame |
| C294 Imaginary loudspeakers are mixed to their neighbours with energy one | refuted: the matrix is not cleared before it is set up for a new layout; what holds, in cleared memory: unit columns, energy one and equal shares; in any memory, gains between imaginary loudspeakers of at most 1/100 unless all 20 rounds were made |
| C295 Objects are heard | refuted: without imaginary loudspeakers the downmix matrix is never set and every object is silent; what holds: with an imaginary loudspeaker an object that gives a gain to a real loudspeaker is heard with its energy |
| C298 No gap of more than 160 degrees is left | refuted for layouts without a loudspeaker below 45 degrees; proved for all others |
| C299 Imaginary loudspeakers keep symmetry and stay away from real ones | refuted: the loop over the gaps goes on over the loudspeakers it has appended; what holds: without inner gaps of more than 160 degrees all imaginary loudspeakers of the ring are behind the last real one and before the first one of the next turn |
| C301 Imaginary loudspeakers between four loudspeakers | refuted: the place is the middle of the nominal positions, so that with loudspeakers at 20 and 21 degrees the imaginary one is below all four. When it is added is proved; it lies within the four if the lower ones are at most at 17.5 degrees |
| C306 Near field compensation by order of the channel | refuted: every channel gets the filter of the order of the content, so that a constant in channel 0 is multiplied by a ratio below one to this power. The channels of the highest order are right |
| C309 Groups in a box of an MP4 file | refuted: 17 to 127 groups are written beyond the table of 16. Up to 16 groups no box is undefined, and groups without languages are read back |
| C310 Languages of groups in a box of an MP4 file | refuted: 8 of the 24 bits are read. Groups without languages are read back |
| C311 Members of groups of an MP4 file | refuted: every group has two elements and only the first two groups get a first element, so that later ones have those of the first group. Two groups are right |
| C312 Switch groups in a box of an MP4 file | refuted: 9 to 127 switch groups are written beyond the table of 8. Up to 8 are read back |
| C313 Presets in a box of an MP4 file | refuted: 9 to 127 presets and 17 to 127 conditions are written beyond the tables, and of 128 to 255 conditions none is read. Up to 8 presets of up to 16 conditions are read back |
| C314 Descriptions in a box of an MP4 file | refuted: texts of groups and presets are always the character 0, those of switch groups bits, and 128 descriptions of groups are written beyond the table. Up to 127 no box is undefined |
| C321 Room for signalled ambisonics matrices | refuted: layout 13 has 24 loudspeakers, three positions of each are written into a table of 49; proved for all other layouts |
| C322 LFE channels of ambisonics | refuted: the kinds of the loudspeakers are taken from the CICP index even when the layout is given by single loudspeakers, and an error of the multiplication is lost; proved when the kinds are those of the layout |
| C325 Changes of symmetry at short edges | refuted: kernel type 2 is taken for one with the sign of type 0, the end of the block comes out with the wrong sign; proved for the other types |
| C326 Changes of symmetry in eight short blocks | refuted: types 1 and 2 are windowed like type 0, so what is kept is always symmetric; proved for types 0 and 3 (C323_frame) |
| C331 The transform of short blocks at which the symmetry changes | refuted: the table of angles is that of 1024 values for all sizes; proved for long blocks (C330) |
| C335 Long blocks after a frame of the time domain begin with what was kept | refuted: the memcpy counts n_flat_ls in bytes, so that samples 224 to 511 are those the buffer of the output held before; proved: exactly what is written, that the first 224 and the last 256 samples are right, and what is kept |
| C336 Aliasing cancellation of long blocks after a frame of the time domain | refuted: the two halves of the FAC signal are exchanged (the short blocks of C334 use the right order); proved: with the halves given in the other order the aliasing is cancelled, and the last 256 samples are right |
| C340 Samples written ahead by the bass post filter | refuted: with a full band part the sum is multiplied by two inside of the loop over the coefficients, so that the coefficients count up to 2^25 times; refuted for every low pass filter whose last coefficient is not 0; proved without a full band part |
| C343 The bass post filter after a frame of the time domain reads its own channel | refuted: 1536 samples are copied from a row of 1024, so that the last of the 24 channels reads behind the array; proved: for all other channels there is an outcome, and it does not depend on the samples of other channels |
| C347 The decomposition of the HOA renderer fits into its arrays | refuted: the matrix U has room for 24 * 24 elements, but 49 * 22 are written for order 6 and 22 loudspeakers; proved: matrices of at most 576 elements fit; the scratch buffers are not modelled |
| C348 The pseudo-inverse of the HOA renderer | refuted: the limit comes from the second singular value, not from the first one, so that a second value of 1/1000000 is inverted next to a first one of 1; proved: when all values that are not 0 are above that limit, P of A satisfies A P A = A and P A P = P; for at least two columns and when the elements of S beside the diagonal, which are never written, are 0 |
| C349 Singular values that the HOA renderer drops | refuted: the first value below the limit is still kept; proved: all values above the limit are kept, and at most one below |
| C352 Positions for plane waves have the distance 1 | refuted: points given by x, y and z keep their distance; proved for positions given by distance and angles; all positions that the decoder sets up (impeghd_hoa_ren_space_positions_init_with_param and init_with_surround) are of that kind |
| C358 Normalised gains of robust panning | refuted: gains that are all below a millionth are multiplied by infinity; proved when one gain is at least a millionth; the decoder itself does not ask for the normalisation |
| C360 Matrices of robust panning are set up apart from each other | refuted: impeghd_hoa_ren_simple_mtrx_init_with_size clears 49 * 49 elements of matrices that have 24 * 24, which reaches into the four matrices behind them; proved: after all calls the matrices hold what they should, and nothing behind the structure's member svd_a.w_s is written |
| C362 Edges of the visible triangles of the loudspeaker hull | refuted: for 15 or more visible triangles, of the 44 that there may be, the 44 elements of edge_params do not hold three edges of each; whether a layout has so many visible triangles is not shown; proved for up to 14 |

## What is modelled

Functions in italics are arbitrary programs or arbitrary functions in the model.  A function in the
second column may be modelled in part; the comment at its definition gives the lines.

| file | modelled functions | not modelled |
|---|---|---|
| decoder/ia_core_coder_acelp_bitparse.c | `ia_core_coder_get_mode_lpc`, `ia_core_coder_qn_data`, `ia_core_coder_code_book_indices`, `ia_core_coder_lpc_data`, `ia_core_coder_fac_decoding`, `ia_core_coder_acelp_decoding`, `ia_core_coder_tcx_coding`, `ia_core_coder_lpd_channel_stream` | `ia_core_coder_tw_buff_update`, `ia_core_coder_td_frm_dec` |
| decoder/ia_core_coder_acelp_decode.c | `ia_core_coder_acelp_decode_1sp_per_track`, `ia_core_coder_acelp_decode_2sp_per_track`, `ia_core_coder_acelp_decode_3sp_per_track`, `ia_core_coder_d_acelp_decode_4sp_per_track_section`, `ia_core_coder_acelp_decode_4sp_per_track`, `ia_core_coder_d_acelp_add_pulse`, `ia_core_coder_d_acelp_decode_1p_n1`, `ia_core_coder_acelp_decode_pulses_per_track`, `ia_core_coder_cb_exc_calc` | `ia_core_coder_acelp_pitch_sharpening`, `ia_core_coder_acelp_decode_gains`, `ia_core_coder_acelp_alias_cnx` |
| decoder/ia_core_coder_acelp_tools.c | `ia_core_coder_preemphsis_tool`, `ia_core_coder_deemphsis_tool`, `ia_core_coder_synthesis_tool`, `ia_core_coder_synthesis_tool1`, `ia_core_coder_residual_tool` | `ia_core_coder_lpc_wt_synthesis_tool` |
| decoder/ia_core_coder_arith_dec.c | `ia_core_coder_arith_map_context`, `ia_core_coder_arith_first_symbol`, `ia_core_coder_arith_get_pk`, `ia_core_coder_arith_decode`, `ia_core_coder_arith_get_context`, `ia_core_coder_arth_decoding_level2`, `ia_core_coder_apply_scale_factor`, `ia_core_coder_randomsign_fix`, `impeghd_esc_iquant`, `ia_core_coder_apply_scfs_and_nf`, `ia_core_coder_fd_chn_fdp_decode`, `ia_core_coder_ac_spectral_data`, `ia_core_coder_arith_data` |  |
| decoder/ia_core_coder_avq_dec.c | `ia_core_coder_nearest_2d_neighbor`, `ia_core_coder_search_voronoi`, `ia_core_coder_decode_voronoi_idx`, `ia_core_coder_gosset_rank_of_permutation`, `ia_core_coder_get_abs_leader_tbl`, `ia_core_coder_gosset_decode_base_index`, `ia_core_coder_rotated_gosset_mtx_dec` |  |
| decoder/ia_core_coder_basic_ops.c | `ia_core_coder_windowing_long1`, `ia_core_coder_windowing_long2`, `ia_core_coder_windowing_long3`, `ia_core_coder_windowing_short1`, `ia_core_coder_windowing_short2`, `ia_core_coder_windowing_short3`, `ia_core_coder_windowing_short4` | `ia_core_coder_memset`, `ia_core_coder_mem_cpy`, `ia_core_coder_vec_cnst_mul` |
| decoder/ia_core_coder_basic_ops32.h | `ia_core_coder_mul32_sh_sat`, `ia_core_coder_shl32_sat`, `ia_core_coder_add32_sat`, `ia_core_coder_add32_sat3`, `ia_core_coder_sub32_sat`, `ia_core_coder_norm32`, `ia_core_coder_abs32_sat`, `ia_core_coder_negate32_sat` | 20 other functions |
| decoder/ia_core_coder_basic_ops40.h | `ia_core_coder_mult64_sat`, `ia_core_coder_add64_sat`, `ia_core_coder_sat64_32`, `ia_core_coder_sub64_sat`, `ia_core_coder_rounded_sqrt64` | 18 other functions |
| decoder/ia_core_coder_bitbuffer.c | `ia_core_coder_skip_bits_buf`, `ia_core_coder_show_bits_buf`, `ia_core_coder_read_bits_buf`, `ia_core_coder_read_bits_buf_32`, `ia_core_coder_mpeghd_read_byte_corr1`, `impeghd_create_write_bit_buffer`, `impeghd_write_bits_buf`, `impeghd_write_escape_value` |  |
| decoder/ia_core_coder_common_initfuncs.c | `ia_core_coder_create_init_bit_buf` | `ia_core_coder_create_bit_buf` |
| decoder/ia_core_coder_decode_main.c | `impd_match_downmix`, `ia_core_coder_samples_sat`, `ia_core_coder_audio_preroll_parsing`, `impeghd_obj_md_dec_ren_process`, `impeghd_uni_drc_dec_process`, `ia_core_coder_dec_main`, `impeghd_uni_drc_dec_init` | 15 other functions |
| decoder/ia_core_coder_env_extr.c | `ia_core_coder_cnt_leading_zeroes`, `ia_core_coder_huffman_decode` |  |
| decoder/ia_core_coder_ext_ch_ele.c | `ia_core_coder_cplx_pred_data`, `ia_core_coder_read_ms_mask`, `ia_core_coder_read_igf_mask`, `ia_core_coder_filter_and_add`, `ia_core_coder_estimate_dmx_im`, `ia_core_coder_cplx_pred_upmixing`, `ia_core_coder_cplx_prev_mdct_dmx`, `ia_core_coder_ics_info`, `ia_core_coder_data`, `impeghd_ms_stereo` | `ia_core_coder_usac_cplx_save_prev`, `ia_core_coder_read_lpd_fd_data`, `ia_core_coder_data_process_igf_joint_stereo_before_tns`, `ia_core_coder_data_process_igf_joint_stereo_after_tns`, `ia_core_coder_data_process` |
| decoder/ia_core_coder_headerdecode.c | `impegh_3daudio_config_dec`, `ia_core_coder_headerdecode` |  |
| decoder/ia_core_coder_huff_tools.c | `ia_core_coder_huff_codeword` | `ia_core_coder_hufftab` |
| decoder/ia_core_coder_igf_dec.c | `ia_core_coder_igf_quant_ctx`, `ia_core_coder_igf_arith_decode_bits`, `ia_core_coder_igf_arith_decode_residual`, `ia_core_coder_igf_arith_decode`, `ia_core_coder_igf_get_igf_min`, `ia_core_coder_igf_decode_whitening_level`, `ia_core_coder_igf_reset_data`, `ia_core_coder_igf_get_tile_idx`, `ia_core_coder_igf_get_num_tiles`, `ia_core_coder_igf_get_sb`, `ia_core_coder_igf_get_random_sign`, `ia_core_coder_igf_apply_whitening`, `ia_core_coder_igf_norm`, `ia_core_coder_igf_rescale`, `ia_core_coder_igf_calc_mono`, `ia_core_coder_igf_apply_mono`, `ia_core_coder_get_igf_levels`, `ia_core_coder_get_igf_data`, `ia_core_coder_igf_init`, *ia_core_coder_igf_stereofilling*, `ia_core_coder_igf_mono` | 16 other functions |
| decoder/ia_core_coder_imdct.c | `ia_core_coder_calc_pre_twid_dec`, `ia_core_coder_calc_post_twid_dec`, `ia_core_coder_fft_based_imdct`, `ia_core_coder_acelp_imdct`, `ia_core_coder_fd_imdct_short`, `ia_core_coder_fd_imdct_long`, `ia_core_coder_fd_frm_dec` | `impeghd_get_gain`, `impeghd_lpd_bpf` |
| decoder/ia_core_coder_init_config.c | `impeghd_prod_metadata_config`, `ia_core_coder_read_escape_value`, `ia_core_coder_ext_element_config`, `ia_core_coder_map_ele_to_channel`, `ia_core_coder_cpe_config`, `ia_core_coder_decoder_config`, `impeghd_sig_group_info`, `impeghd_parse_dmx_ext_config`, `impeghd_compatible_profile_level_set`, `ia_core_coder_config_extension`, `impeghd_spk_description`, `impeghd_flexispk_config`, `ia_core_coder_mpegh_3da_config`, `impeghd_speaker_config_3d`, `impeghd_azi_idx_degree`, `impeghd_elev_idx_degree`, `impeghd_fill_ls_geom_frm_cicp_spk_idx`, `impeghd_get_geom_frm_spk_cfg` | `ia_core_coder_conf_default` |
| decoder/ia_core_coder_lpc.c | `ia_core_coder_bass_post_filter`, `ia_core_coder_lpd_bpf_calc_pitch_gain`, `ia_core_coder_lpd_bpf` | `ia_core_coder_reset_acelp_data`, `ia_core_coder_init_acelp_data`, `ia_core_coder_lpd_dec_preemph_res`, `ia_core_coder_lpd_dec_tbe_resample`, `ia_core_coder_lpd_dec_tcx_resample`, `ia_core_coder_lpd_dec_lpd_stereo_proc`, `ia_core_coder_lpd_dec`, `impeghd_synth_end_fullband`, `impeghd_synth_end`, `ia_core_coder_lpd_dec_update` |
| decoder/ia_core_coder_lpc_dec.c | `ia_core_coder_decoding_avq_tool`, `ia_core_coder_avq_first_approx_abs`, `ia_core_coder_avq_first_approx_rel`, `ia_core_coder_alg_vec_dequant` |  |
| decoder/ia_core_coder_ltpf.c | `ia_core_coder_ltpf_dec_params`, `ia_core_coder_ltpf_filter`, `ia_core_coder_ltpf_get_lpc`, `ia_core_coder_ltpf_get_zir`, `ia_core_coder_ltpf_init`, `ia_core_coder_usac_ltpf_process` |  |
| decoder/ia_core_coder_process.c | `ia_core_coder_read_ext_element`, `ia_core_coder_usac_process` | `impeghd_format_conv_active_dmx_stft_process`, `impeghd_format_conv_earcon_process`, `impeghd_domain_switcher_process`, `impeghd_format_converter_process` |
| decoder/ia_core_coder_spectrum_dec.c | `ia_core_coder_mpeghd_showbits_32`, `ia_core_coder_calc_grp_offset`, `ia_core_coder_read_tns_tcx`, `ia_core_coder_read_tns_u`, `ia_core_coder_scale_factor_data`, `ia_core_coder_win_seq_select`, `ia_core_coder_section_data`, `ia_core_coder_fd_channel_stream` |  |
| decoder/ia_core_coder_tcx_fwd_alcnx.c | `ia_core_coder_tcx_fdp_decode`, `ia_core_coder_get_noise_bw`, `ia_core_coder_tns_lpd_synth_filter`, `ia_core_coder_tns_lpd_prepare_lp_coeffs`, `ia_core_coder_tns_dec_lpd`, `ia_core_coder_tcx_mdct` | `ia_core_coder_lpc_coeff_wt_apply`, `ia_core_coder_low_fq_deemphasis`, `ia_core_coder_tcx_igf_inf_spec`, `ia_core_coder_randomsign` |
| decoder/ia_core_coder_tns.c | `impeghd_tns_decode_coeff_ar_filter`, `ia_core_coder_igf_nbands`, `ia_core_coder_tns_apply` |  |
| decoder/ia_core_coder_windowing.c | `ia_core_coder_calc_window` |  |
| decoder/impd_drc_dynamic_payload.c | `impd_drc_get_initial_gain`, `impd_drc_update_value`, `impd_drc_decode_gains`, `impd_drc_decode_slopes`, `impd_drc_decode_times`, `impd_drc_read_uni_drc_gain_ext`, `impd_drc_read_uni_drc_gain`, `impd_drc_read_spline_nodes`, `impd_drc_read_drc_gain_sequence` |  |
| decoder/impd_drc_extr_delta_coded_info.c | `impd_drc_create_delta_gain_code_tbl`, `impd_drc_create_delta_time_code_tbl`, `impd_drc_get_delta_tmin` | `impd_drc_init_tbls` |
| decoder/impd_drc_filter_bank.c | `impd_drc_initialize_filt_bank`, `impd_drc_init_all_filter_banks` | `impd_drc_compute_filt_coeff`, `impd_drc_iir_second_order_all_pass_filter`, `impd_drc_apply_low_high_filter`, `impd_drc_two_band_filter_process`, `impd_drc_three_band_filter_process`, `impd_drc_four_band_filter_process`, `impd_drc_all_pass_cascade_process` |
| decoder/impd_drc_gain_dec.c | `impd_drc_conv_gain_db_to_linear_domain`, `impd_drc_interpolate_drc_gain`, `impd_drc_advance_buf`, `impd_drc_concatenate_segments`, `impd_drc_get_gain` |  |
| decoder/impd_drc_init.c | `impd_drc_init_bitstream_config`, `impd_drc_init_bitstream_dec`, `impd_drc_select_coefficients`, `impd_drc_set_channel_group_info`, `impd_drc_set_multiband`, `impd_drc_init_selected_drc_set`, `impd_drc_init_decode`, `impd_drc_init_decode_post_config` | `impd_drc_init_params`, `impd_drc_update_effect_type_request` |
| decoder/impd_drc_loudness_control.c | `impd_drc_check_if_match`, `impd_drc_signal_peak_level_info`, `impd_drc_chk_loudness_info_present`, `impd_drc_check_loudness_info`, `impd_drc_check_loudness_payload`, `impd_drc_init_loudness_control` | `impd_drc_extract_loudness_peak_to_avg_info`, `impd_drc_loudness_pk_to_avg_info`, `impd_drc_find_overall_loudness_info`, `impd_drc_high_pass_loudness_adjust_info`, `impd_drc_find_high_pass_loudness_adjust` |
| decoder/impd_drc_multiband.c | `impd_drc_generate_slope`, `impd_drc_init_overlap_weight` | `impd_drc_generate_overlap_weights` |
| decoder/impd_drc_process.c | `impd_drc_apply_gains_and_add`, `impd_drc_apply_gains_subband`, `impd_drc_filter_banks_process`, `impd_drc_td_process`, `impd_drc_fd_process` |  |
| decoder/impd_drc_selection_process.c | `impd_select_drc_set`, `impd_get_selected_drc_set`, `impd_get_dependent_drc_set`, `impd_get_fading_drc_set`, `impd_get_ducking_drc_set`, `impd_drc_uni_sel_proc_process` | `impd_drc_uni_selction_proc_init`, `impd_drc_mpegh_params_set_sel_process`, `impd_sel_downmix_matrix`, `impd_drc_map_target_config_req_downmix_id` |
| decoder/impd_drc_selection_process_drcset_selection.c | `impd_drc_get_dependent_drc_instructions`, `impd_drc_select_drcs_without_compr_effects`, `impd_drc_match_effect_type_attempt`, `impd_drc_match_effect_types`, `impd_drc_set_pre_selection`, `impd_drc_set_final_selection` | `impd_drc_validate_requested_drc_feature`, `impd_drc_match_dynamic_range`, `impd_match_drc_characteristic_attempt`, `impd_drc_match_drc_characteristic`, `impd_select_drc_coeff3` |
| decoder/impd_drc_static_payload.c | `impd_drc_gen_instructions_for_drc_off`, `impd_drc_parse_config_ext`, `impd_drc_gen_instructions_derived_data`, `impd_drc_decode_method_value`, `impd_drc_parse_loudness_measure`, `impd_drc_parse_loudness_info`, `impd_drc_parse_loudness_info_set_ext`, *impd_drc_mpegh3da_parse_loudness_info_set*, `impd_drc_parse_gain_set_params`, `impd_drc_parse_coeff`, `impd_drc_parse_target_loudness`, `impd_drc_update_uni_drc_coeff`, `impd_drc_parse_downmix_id`, `impd_drc_update_ch_count`, `impd_drc_decode_gain_modifiers`, `impd_drc_parse_instrns_effect_not_self_other`, `impd_drc_decode_ducking_scaling`, `impd_drc_update_ch_group_info_duck_self`, `impd_drc_update_ch_group_info_duck_other`, `impd_drc_parse_instrns_effect_self_other`, `impd_drc_parse_drc_instructions`, `impd_drc_parse_config` | `impd_drc_mpegh3da_parse_drc_channel_layout` |
| decoder/impeghd_3d_vec_basic_ops.c | `impeghd_pol_2_cart`, `impeghd_pol_2_cart_degree`, `impeghd_cart_2_pol`, `impeghd_scaled_vec_addition_cart`, `impeghd_get_vx_proj_len` |  |
| decoder/impeghd_api.c | `impeghd_resampler_get_sampling_ratio`, `impeghd_set_default_config`, `impeghd_set_config_params`, `impeghd_alloc_and_assign_mem`, `ia_mpegh_dec_create`, `ia_mpegh_dec_execute`, `ia_mpegh_dec_delete`, `ia_core_coder_dec_execute` | `ia_core_coder_fill_mpeghd_mem_tables`, `impeghd_update_output_config`, `ia_mpegh_dec_get_lib_id_strings`, `ia_mpegh_dec_init`, `ia_core_coder_decoder_flush_api`, `ia_core_coder_dec_init` |
| decoder/impeghd_binaural.c | *impeghd_read_brir_info* | `impeghd_binaural_read_fir_data`, `impeghd_binaural_read_td_data`, `impeghd_parse_brir_info` |
| decoder/impeghd_cicp_2_geometry.c | `impeghd_cicpidx_2_ls_geometry` |  |
| decoder/impeghd_dmx_mtx.c | `impeghd_read_range`, `impeghd_decode_gain`, `impeghd_find_comp_tmplt`, `impeghd_convert_to_compact_config`, `impeghd_decode_flat_compact_mtx`, `impeghd_decode_eq_config`, *impeghd_peak_filter*, `impeghd_generate_gain_table`, `impeghd_decode_downmix_matrix` |  |
| decoder/impeghd_ele_interaction_intrfc.c | `impeghd_loud_spk_ren`, `impeghd_loud_spk_inv_quant`, `impeghd_ei_grp_intrctvty_status`, `impeghd_ele_interaction_data`, `impeghd_lcl_zoom_area_size`, `impeghd_ele_interaction`, `impeghd_3da_local_setup_information` | `impeghd_lcl_scrn_sz_info`, `impeghd_scene_displacement_data` |
| decoder/impeghd_ext_rend_intrfc.c | `impeghd_write_spk_description`, `impeghd_write_flexispk_config`, `impeghd_write_speaker_config_3d`, `impeghd_write_gca_prod_metadata_frm_ext_ren`, `impeghd_write_goa_prod_meta_data_for_ext_ren`, `impeghd_get_goa_ele_id`, `impeghd_write_downmix_cfg`, `impeghd_write_ch_meta_data_for_ext_ren`, `impeghd_write_oam_meta_data_for_ext_ren` | `impeghd_write_gha_prod_meta_data_for_ext_ren`, `impeghd_write_mae_prod_screen_size`, `impeghd_write_mae_prod_screen_size_dataext`, `impeghd_write_hoa_matrix_wrapper`, `impeghd_write_hoa_meta_data_for_ext_ren` |
| decoder/impeghd_hoa_amb_syn.c | `impeghd_hoa_ambience_synthesis_process` |  |
| decoder/impeghd_hoa_ch_reassignment.c | `impeghd_hoa_ch_reassignment_process` |  |
| decoder/impeghd_hoa_common_functions.c | `impeghd_hoa_pow_2`, `impeghd_hoa_get_ceil_log2` | `impeghd_hoa_cal_legendre`, `impeghd_hoa_spherical_harmonics`, `impeghd_hoa_table_get_transpose_mode_mat_for_fine_grid`, `impeghd_hoa_get_sample`, `impeghd_hoa_compute_fade_win_for_vec_based_syn` |
| decoder/impeghd_hoa_config.c | `impeghd_hoa_v_vec_len_and_coeff_calc`, `impeghd_fill_config` |  |
| decoder/impeghd_hoa_decoder.c | `impeghd_hoa_dec_init`, `impeghd_hoa_dec_decode` |  |
| decoder/impeghd_hoa_dir_based_pre_dom_sound_syn.c | `impeghd_hoa_compute_hoa_repr_of_dir_sigs`, `impeghd_hoa_dir_based_pre_dom_sound_syn_process`, `impeghd_hoa_compute_smoothed_hoa_representation_of_spat_pred_sigs`, `impeghd_hoa_compute_hoa_representation_of_spat_pred` | `impeghd_hoa_table_get_matrix`, `impeghd_hoa_table_get_mode_mat` |
| decoder/impeghd_hoa_frame.c | `impeghd_hoa_get_sub_idx`, `impeghd_hoa_huffman_decode`, `impeghd_hoa_frame`, `impeghd_hoa_frame_v_vector_data` |  |
| decoder/impeghd_hoa_inverse_dyn_correction.c | `impeghd_hoa_inv_dyn_correction_process` |  |
| decoder/impeghd_hoa_matrix.c | `impeghd_read_range`, *impeghd_hoa_matrix* | `impeghd_find_symmetric_speakers`, `impegh_decode_hoa_matrix_data`, `impeghd_hoa_rendering_matrix`, `impeghd_hoa_matrix_wrapper` |
| decoder/impeghd_hoa_nfc_filtering.c | `impeghd_hoa_ren_iir_ord_2_filter`, `impeghd_hoa_ren_iir_ord_1_filter`, `impeghd_hoa_ren_nfc_set_filter_params`, `impeghd_hoa_ren_nfc_filter_apply` |  |
| decoder/impeghd_hoa_pre_dom_sound_syn.c | `impeghd_hoa_pre_dom_sound_syn_process` |  |
| decoder/impeghd_hoa_render_mtrx.c | `impeghd_hoa_ren_mtrx_init_with_mtrx_param`, `impeghd_hoa_ren_mtrx_init`, `impeghd_hoa_ren_mtrx_resort_spk_pos` | `impeghd_hoa_ren_mtrx_init_with_spc_pos_param` |
| decoder/impeghd_hoa_renderer.c | `impeghd_hoa_ren_nfc_init`, `impeghd_hoa_ren_preprocess_nfc`, `impeghd_hoa_ren_block_process`, *impeghd_hoa_ren_get_loudspeaker_type*, `impeghd_hoa_ren_permute_lfe_channel`, `impeghd_hoa_ren_angular_distance`, `impeghd_hoa_ren_permute_signaled_rendering_matrix`, `impeghd_hoa_ren_validate_signaled_rendering_matrix` |  |
| decoder/impeghd_hoa_robust_pan.c | `ia_render_hoa_robust_pan_init`, `ia_render_hoa_robust_pan_init_with_spc_positions`, `ia_render_hoa_robust_pan_calculate_gains_pre` |  |
| decoder/impeghd_hoa_simple_mtrx.c | `impeghd_hoa_ren_simple_mtrx_init_with_size`, `impeghd_hoa_ren_simple_mtrx_transpose_keep`, `impeghd_hoa_ren_simple_mtrx_transpose`, `impeghd_hoa_ren_simple_mtrx_mult`, `impeghd_hoa_ren_simple_mtrx_diag_mult`, `impeghd_hoa_ren_simple_mtrx_norm_fro`, `impeghd_hoa_ren_simple_mtrx_swap_cols`, `impeghd_hoa_get_sort_idx`, `impeghd_hoa_ren_simple_mtrx_svd_init`, `impeghd_hoa_ren_simple_mtrx_svd_pinv` | `impeghd_hoa_ren_simple_mtrx_init_with_matrix`, `impeghd_hoa_pythagoras`, `impeghd_hoa_dsvd` |
| decoder/impeghd_hoa_space_positions.c | *impeghd_hoa_ren_space_positions_init_with_param*, `impeghd_hoa_ren_space_positions_init_pos`, `impeghd_hoa_ren_space_positions_add_poles`, `impeghd_hoa_ren_space_positions_is_2d`, `impeghd_hoa_ren_space_positions_convert_copy_to_cartesian`, `impeghd_hoa_ren_space_positions_convert_copy_to_spherical`, `impeghd_hoa_ren_space_positions_get_max_min_inclination`, `impeghd_hoa_ren_space_positions_get_max_distance` | `impeghd_hoa_ren_space_positions_init_with_surround` |
| decoder/impeghd_hoa_spatial_decoder.c | `impeghd_hoa_spatial_sort_array_ascending`, `impeghd_hoa_spatial_init`, `impeghd_hoa_get_exponents`, `impeghd_hoa_spatial_decode_frame_side_info`, `impeghd_hoa_spatial_process` |  |
| decoder/impeghd_hoa_vector_based_predom_sound_syn.c | `impeghd_hoa_vector_based_predom_sound_syn_process` |  |
| decoder/impeghd_ifft.c | *impeghd_rad2_cplx_ifft* | `impeghd_ifft_7`, `impeghd_ifft_3`, `impeghd_mix_rad_ifft_3nx3`, `impeghd_mix_rad_ifft_tw_mult`, `impeghd_mix_rad_ifft_3nx7`, `impeghd_cplx_ifft_8`, `impeghd_cplx_ifft_4`, `impeghd_cplx_ifft_8k` |
| decoder/impeghd_mae_mp4_intrfc.c | `impeghd_mp4_get_mael`, `impeghd_mp4_get_maep`, `impeghd_mp4_get_maes`, `impeghd_mp4_get_maeg` |  |
| decoder/impeghd_mhas_parse.c | `impeghd_mae_parse_description_data`, `impeghd_mae_parse_content_data`, `impeghd_mae_parse_composite_pair`, `impeghd_mae_parse_prod_screen_sz_data`, `impeghd_mae_parse_prod_screen_sz_data_ext`, `impeghd_mae_parse_loudness_comp_data`, `impeghd_mae_parse_drc_user_interface_info`, `impeghd_mae_asi_group_def`, `impeghd_mae_asi_switch_group_def`, `impeghd_mae_asi_group_presets_def`, `impeghd_mae_asi_group_presets_def_ext`, `ia_sign_extend_16`, `ia_sign_extend_24`, `impeghd_pcm_data_payload`, `impeghd_pcm_data_config`, `impeghd_econ_config_info`, `impeghd_mae_asi_data_parse`, `impeghd_mae_asi_parse`, `impeghd_mhas_parse` |  |
| decoder/impeghd_multichannel.c | `impeghd_mc_decode_huffman`, `impeghd_mc_parse_ch_pair`, `impeghd_mc_parse`, `impeghd_apply_mc_inverse_rotation`, `impeghd_mc_get_prev_dmx`, `impeghd_apply_mc_rotation`, `impeghd_apply_mc_prediction`, `impeghd_mc_process` | `impeghd_mc_stereofilling_add`, `impeghd_mc_init`, `impeghd_mc_save_prev` |
| decoder/impeghd_oam_dec.c | `impeghd_obj_md_dec`, `impeghd_obj_md_cfg`, `impeghd_enh_obj_md_config`, `impeghd_enh_obj_md_frame` |  |
| decoder/impeghd_oam_dec_ld.c | `impeghd_limit_range_ld_obj_md`, `impeghd_oam_read_sign_param`, `impeghd_ic_oam_ld_signed_param_dec`, `impeghd_ic_oam_ld_unsigned_param_dec`, `impeghd_single_dyn_obj_md`, `impeghd_ic_obj_md_ld_dec`, `impeghd_descale_ld_obj_md`, `impeghd_obj_md_low_delay_dec` | `impeghd_obj_md_descale_limit` |
| decoder/impeghd_obj_ren_dec.c | `impegh_quick_sort_idx`, `impegh_quick_sort_azi`, `impeghd_ls_subset_empty`, `impeghd_ls_subset_exist`, `impeghd_adjust_ele_azi_ind`, `impeghd_cicpidx_calc_ls_mean_ele`, `impeghd_cicpidx_calc_ls_mean_azi`, `impeghd_add_imaginary_ls`, `impeghd_extract_unique_edges`, `impeghd_remap_imag_spks`, `impeghd_calc_inv_matrix`, `impeghd_vbap_core_init`, `impeghd_obj_renderer_dec_init`, `impeghd_obj_renderer_dec` | `impeghd_flex_spk_2_ls_geometry`, `impeghd_ls_get_ele_index`, `impeghd_ls_get_azi_index`, `impeghd_ls_get_index` |
| decoder/impeghd_obj_ren_vbap.c | `impeghd_nrm_values`, `impeghd_calc_spread_gains`, `impeghd_calc_one_source_point`, `impeghd_vector_process`, `impeghd_spreading_calc_mdap_vectors`, `impeghd_calc_vbap`, `impegh_obj_ren_vbap_process` |  |
| decoder/impeghd_peak_limiter.c | `impeghd_cpy_delay_samples`, `impeghd_peak_limiter_init`, `impeghd_peak_limiter_process` | `impeghd_cpy_delay_samples_with_gain` |
| decoder/impeghd_resampler.c | `impeghd_resample` |  |
| decoder/impeghd_scene_displacement.c | `impeghd_rotate_cart_coord` | `impeghd_get_sig_group_idx`, `impeghd_apply_scene_displacement` |
| decoder/impeghd_tbe_dec.c | *ia_core_coder_tbe_data* | 29 other functions |

Files of which nothing is modelled (number of functions): decoder/ia_core_coder_acelp_mdct.c (4), decoder/ia_core_coder_create.c (6), decoder/ia_core_coder_fwd_alias_cnx.c (1), decoder/ia_core_coder_stereo_lpd.c (13), decoder/ia_core_coder_tcx_fwd_mdct.c (5), decoder/impd_drc_host_params.c (2), decoder/impd_drc_selection_process_init.c (3), decoder/impeghd_binaural_filter_design.c (1), decoder/impeghd_binaural_renderer.c (8), decoder/impeghd_ext_rend_intrfc_util.c (15), decoder/impeghd_fft.c (10), decoder/impeghd_format_conv_init.c (11), decoder/impeghd_hoa_dec_init.c (9), decoder/impeghd_metadata_preprocessor.c (31), test/impeghd_error.c (3), test/impeghd_main.c (5), test/mp4/impeghd_mp4_file.c (9), test/mp4/impeghd_mp4_file_wrapper.c (3), test/mp4/impeghd_mp4_init.c (13), test/mp4/impeghd_mp4_mae_parser.c (2), test/mp4/impeghd_mp4_parser.c (6), test/mp4/impeghd_mp4_utils.c (18), test/mp4/impeghd_mp4_video.c (15).

ARM and other platform-specific versions of functions are not modelled.

## Axioms by theorem

* no axioms (12): `Api.C101_refuted`, `Api.C22_refuted`, `Api.C23_refuted`, `Api.C24_refuted`, `Api.C25_refuted_empty`, `Api.C25_refuted_stale`, `Config.C97_refuted_25`, `Dmx.C286_table`, `Hoa.C228_single_partial`, `Ltpf.C250_lag_refuted`, `ObjRen.C293_refuted`, `Preroll.C56_refuted`.
* `Classical.choice`, `Quot.sound`, `propext` (711): `Acelp.adaptive_interpolates`, `Acelp.adaptive_past_refuted`, `Acelp.adaptive_rates`, `Acelp.adaptive_safe`, `Acelp.adaptive_safe_refuted`, `Acelp.deemph_pieces`, `Acelp.deemph_preemph`, `Acelp.preemph_deemph`, `Acelp.pulses_iff`, `Acelp.pulses_inside`, `Acelp.pulses_number_most`, `Acelp.pulses_number_partial`, `Acelp.pulses_number_refuted`, `Acelp.pulses_unique_partial`, `Acelp.pulses_unique_refuted`, `Acelp.residual_synthesis`, `Acelp.smooth_bounds`, `Acelp.smooth_steady`, `Acelp.smooth_unstable`, `Acelp.stability_bounds`, `Acelp.stability_same`, `Acelp.subCode_pulses`, `Acelp.synthesis_residual`, `Acelp.threshold_eq`, `Acelp.voicing_bounds`, `Api.C21_failed_partial`, `Api.C22_reports_partial`, `Api.C23_in_range_partial`, `Api.C23_takes_effect`, `Api.C23_upper_partial`, `Api.C24_ratio_partial`, `Api.C25_progress_partial`, `Api.C54_refuted`, `Arith.C113_spectrum_partial`, `Arith.C31_interval`, `Arith.C31_interval_runC`, `Arith.C32_decode_encode_partial`, `Arith.C33_terminates`, `Arith.C34_getPk`, `Arith.C57_no_ub_partial`, `Arith.C58_refuted`, `Arith.C58_signs_partial`, `Asi.C12_tables`, `Asi.C13_unique`, `Asi.C14_partial`, `Asi.C14_refuted`, `Asi.C15_repeat_rejected`, `Asi.C16_unknown_skipped`, `Asi.C51_switch_round_trip`, `Asi.C52_preset_round_trip_partial`, `Asi.C53_declared_length_partial`, `Asi.C53_refuted`, `Avq.C154_lattice_partial`, `Avq.C155_injective_partial`, `Avq.C156_nearest_partial`, `Avq.C156_refuted`, `C01_consecutive_slices`, `C01_read_exact`, `C02_histories`, `C02_never_outside`, `C03_peek_read`, `C03_skip_add`, `C03_skip_read`, `C04_round_trip`, `C04_write_seq`, `C05_reader`, `C05_round_trip`, `C06_read32_aligned_partial`, `C06_read32_via_read_refuted`, `C07_position_independent`, `C07_refinement`, `Config.C125_least`, `Config.C126_extensions_partial`, `Config.C127_layout_partial`, `Config.C84_accepted`, `Config.C85_declared_partial`, `Config.C87_clear_partial`, `Config.C87_never`, `Config.C87_refuted`, `Config.C88_element_length`, `Config.C88_payload`, `Config.C88_too_long`, `Config.C89_length_partial`, `Config.C90_preroll_partial`, `Config.C91_entries_partial`, `Config.C92_known_partial`, `Config.C93_accepted`, `Config.C93_read_partial`, `Config.C94_read_partial`, `Config.C95_stored_partial`, `Config.C96_limits`, `Config.C96_safe`, `Config.C97_lost`, `Config.C97_unshifted_partial`, `Config.C98_accepted`, `Config.C98_refuted`, `Config.C98_unshifted_partial`, `Config.C99_elements_partial`, `Config.C99_sequence_partial`, `Config.C99_short_partial`, `Displace.C48_distance_refuted`, `Displace.C48_refuted`, `Displace.C48_rotation_partial`, `Displace.C82_elevation_refuted`, `Displace.C82_radius_partial`, `Displace.C82_refuted`, `Displace.C83_all_moved`, `Displace.C83_range_partial`, `Displace.C83_refuted`, `Dmx.C274_distinct`, `Dmx.C274_roundtrip`, `Dmx.C275_greedy`, `Dmx.C275_partition`, `Dmx.C276_determined`, `Dmx.C277_elements`, `Dmx.C277_flags`, `Dmx.C277_roundtrip`, `Dmx.C278_never`, `Dmx.C278_partial`, `Dmx.C278_refuted`, `Dmx.C279_fits_partial`, `Dmx.C279_length`, `Dmx.C279_members`, `Dmx.C279_once`, `Dmx.C279_overflow`, `Dmx.C279_refuted`, `Dmx.C280_outside`, `Dmx.C280_raw`, `Dmx.C280_raw_partial`, `Dmx.C280_refuted`, `Dmx.C280_same`, `Dmx.C280_table`, `Dmx.C281_gains_partial`, `Dmx.C281_more`, `Dmx.C281_positions_partial`, `Dmx.C281_refuted`, `Dmx.C282_filters`, `Dmx.C283_partial`, `Dmx.C283_refuted`, `Dmx.C284_inside`, `Dmx.C284_places`, `Dmx.C284_readback`, `Dmx.C284_refuted`, `Dmx.C284_roundtrip`, `Dmx.C285_flags`, `Dmx.C286_bands`, `DrcApply.C145_border_refuted`, `DrcApply.C145_crossover`, `DrcApply.C145_refuted`, `DrcApply.C145_slopes`, `DrcApply.C145_subbands_partial`, `DrcApply.C146_one_band`, `DrcApply.C146_time_domain`, `DrcApply.C147_flat`, `DrcApply.C147_subbands`, `DrcApply.C148_partial`, `DrcApply.C148_refuted`, `DrcApply.C149_filters_refuted`, `DrcApply.C149_groups_refuted`, `DrcApply.C149_partial`, `DrcApply.C150_partial`, `DrcApply.C151_partial`, `DrcApply.C151_refuted`, `DrcApply.C152_bytes`, `DrcApply.C152_refuted`, `DrcApply.C153_partial`, `DrcApply.C153_refuted`, `DrcConfig.C118_enlarged_partial`, `DrcConfig.C118_refuted`, `DrcConfig.C119_accepted`, `DrcConfig.C120_groups`, `DrcConfig.C121_refuted`, `DrcConfig.C121_sequence_partial`, `DrcConfig.C122_modifiers_partial`, `DrcConfig.C122_refuted`, `DrcConfig.C123_decoded_partial`, `DrcConfig.C123_refuted`, `DrcConfig.C128_ducking`, `DrcConfig.C128_plain`, `DrcGain.C106_gain_curve`, `DrcGain.C106_ordered`, `DrcGain.C107_partial`, `DrcGain.C107_refuted`, `DrcGain.C108_clipping`, `DrcGain.C108_gain_range`, `DrcGain.C108_sign`, `DrcGain.C109_partial`, `DrcGain.C109_refuted`, `DrcGain.C110_partial`, `DrcGain.C110_refuted`, `DrcGain.C110_reservoir`, `DrcGain.C111_band`, `DrcGain.C111_payload`, `DrcGain.C112_partial`, `DrcGain.C112_refuted`, `DrcGain.parAt_coded`, `DrcLoud.C116_decoded_partial`, `DrcLoud.C116_refuted`, `DrcLoud.C117_refuted`, `DrcLoud.C117_short_partial`, `DrcLoud.C117_sixty_three_partial`, `DrcLoud.C129_known`, `DrcSel.active_sets_partial`, `DrcSel.applied_partial`, `DrcSel.applied_refuted`, `DrcSel.bands_refuted`, `DrcSel.bounds_partial`, `DrcSel.bounds_refuted`, `DrcSel.chain_partial`, `DrcSel.chain_refuted`, `DrcSel.cleared_partial`, `DrcSel.cleared_refuted`, `DrcSel.drc_off_partial`, `DrcSel.drc_off_refuted`, `DrcSel.ducking_before_fading`, `DrcSel.effect_honoured`, `DrcSel.entries_unbounded`, `DrcSel.final_partial`, `DrcSel.fits_partial`, `DrcSel.limit_refuted`, `DrcSel.loudness_control_partial`, `DrcSel.loudness_control_refuted`, `DrcSel.normalised_partial`, `DrcSel.normalised_refuted`, `DrcSel.peak_refuted`, `DrcSel.request_partial`, `DrcSel.request_refuted`, `DrcSel.succeeds_partial`, `DrcSel.succeeds_refuted`, `DrcSel.twice_refuted`, `EnhOam.C41_keep_partial`, `EnhOam.C41_refuted`, `EnhOam.C59_enhanced`, `EnhOam.C60_recent_partial`, `EnhOam.C60_slots_partial`, `EnhOam.C62_refuted`, `EnhOam.C62_sector_partial`, `ExtElem.C103_absent_refuted`, `ExtElem.C103_default_partial`, `ExtElem.C103_drc_refuted`, `ExtElem.C103_partial`, `ExtElem.C104_from_start`, `ExtElem.C104_refuted`, `ExtElem.C104_rows`, `ExtElem.C105_partial`, `ExtElem.C105_refuted`, `ExtRend.C261_buffer`, `ExtRend.C261_objects`, `ExtRend.C261_refuted`, `ExtRend.C262_fits_partial`, `ExtRend.C262_refuted`, `ExtRend.C263_refuted`, `ExtRend.C264_divergence`, `ExtRend.C264_refuted`, `ExtRend.C265_intra`, `ExtRend.C265_refuted`, `ExtRend.C266_groups_partial`, `ExtRend.C266_refuted`, `ExtRend.C267_groups_partial`, `ExtRend.C268_layouts_partial`, `ExtRend.C268_one_partial`, `ExtRend.C269_downmix_partial`, `ExtRend.C270_refuted`, `ExtRend.C270_samples_partial`, `Fd.C178_offsets`, `Fd.C178_windows`, `Fd.C179_fits_partial`, `Fd.C180_tns_partial`, `Fd.C180_tns_refuted`, `Fd.C181_pair_partial`, `Fd.C181_refuted`, `Fd.C181_same_partial`, `Fd.C182_mask`, `Fd.C182_size`, `Fd.C182_stereo`, `Fd.C183_pred`, `Fd.C184_complex_partial`, `Fd.C184_refuted`, `Fd.C185_bands_partial`, `FdMix.C186_inverse`, `FdMix.C186_ms`, `FdMix.C187_prev`, `FdMix.C187_rate`, `FdMix.C187_upmix`, `FdMix.C188_imag`, `FdMix.C189_refuted`, `FdMix.C189_stop_partial`, `FdMix.encoded_exists`, `FdStream.C205_blocks_partial`, `FdStream.C206_channel_partial`, `FdStream.C206_channel_partial`, `FdStream.C206_silent`, `FdStream.C207_full_refuted`, `Fdp.C190_predict`, `Fdp.C190_silent`, `Fdp.C191_safe`, `Fdp.C192_partial`, `Fdp.C192_refuted`, `Fdp.C194_refuted`, `Fdp.C194_tcx_partial`, `Fdp.C195_root`, `Hoa.C220_config`, `Hoa.C221_fields`, `Hoa.C221_split`, `Hoa.C222_order_partial`, `Hoa.C223_code`, `Hoa.C223_ends`, `Hoa.C224_safe_partial`, `Hoa.C225_index_partial`, `Hoa.C225_refuted`, `Hoa.C225_use_partial`, `Hoa.C226_huff_partial`, `Hoa.C226_refuted`, `Hoa.C226_sign_refuted`, `Hoa.C226_tables`, `Hoa.C226_word_partial`, `Hoa.C227_count`, `Hoa.C227_gain_partial`, `Hoa.C227_kinds`, `Hoa.C229_extra_partial`, `Hoa.C229_refuted`, `Hoa.C230_end_partial`, `Hoa.C230_refuted`, `Hoa.C231_beyond`, `Hoa.C232_sorted`, `Hoa.C232_states`, `Hoa.C233_one_kind_partial`, `Hoa.C233_refuted`, `Hoa.C235_kept_partial`, `Hoa.C235_next_partial`, `Hoa.C235_refuted`, `Hoa.C236_channel`, `Hoa.C236_channels`, `Hoa.C236_frame`, `Hoa.C236_lists`, `Hoa.C236_rest`, `Hoa.C236_rests`, `Hoa.C237_independent_partial`, `Hoa.C238_gain`, `Hoa.C238_independent`, `Hoa.C240_range`, `Hoa.C241_change`, `Hoa.C241_steady`, `Hoa.C242_refuted`, `Hoa.C242_same_partial`, `Hoa.C243_direction_to_vector_refuted`, `Hoa.C243_ended_partial`, `Hoa.C243_vector_to_direction_refuted`, `Hoa.C244_change`, `Hoa.C244_handover`, `Hoa.C244_steady`, `Hoa.C247_refuted`, `Hoa.C247_signals_partial`, `Hoa.C248_range_partial`, `Hoa.C248_refuted`, `Hoa.C271_length`, `Hoa.C271_sum`, `Hoa.C272_masked_partial`, `Hoa.C273_last_partial`, `Hoa.C273_refuted`, `HoaPerm.C319_order`, `HoaPerm.C320_close`, `HoaPerm.C320_close`, `HoaPerm.C320_near`, `HoaPerm.C320_same`, `HoaPerm.C321_refuted`, `HoaPerm.C321_small_partial`, `HoaPerm.C322_product`, `HoaPerm.C322_refuted`, `HoaPerm.C322_silent_partial`, `HoaPerm.C322_unchanged`, `HoaRen.C303_blocks`, `HoaRen.C303_length`, `HoaRen.C304_constant`, `HoaRen.C304_equal`, `HoaRen.C304_response`, `HoaRen.C305_stable`, `HoaRen.C306_highest_partial`, `HoaRen.C306_refuted`, `HoaRen.C307_clip`, `HoaRen.C307_filters`, `HoaRen.C307_refused`, `HoaRen.C307_render`, `HoaRen.C308_levels`, `Huff.C46_codeword`, `Huff.C46_codeword_total`, `Huff.C46_drc`, `Huff.C46_mc`, `Huff.C46_mc_tables`, `Huff.C46_scl`, `Huff.C46_update_value`, `Huff.C46_update_value_total`, `Huff.C49_time_code`, `Huff.C66_accepted_partial`, `Huff.C66_partial`, `Huff.C66_refused_partial`, `Igf.C208_range`, `Igf.C208_setup`, `Igf.C208_tiles`, `Igf.C209_inside`, `Igf.C209_neighbours`, `Igf.C209_source`, `Igf.C210_least_partial`, `Igf.C211_rates_partial`, `Igf.C211_reads_partial`, `Igf.C212_coded_partial`, `Igf.C212_levels_partial`, `Igf.C214_data`, `Igf.C214_ranges`, `Igf.C215_accepted_partial`, `Igf.C216_bands`, `Igf.C216_energy`, `Igf.C216_frame`, `Igf.C216_level`, `Igf.C217_kept`, `Igf.C219_energy_partial`, `Igf.C219_refuted`, `Igf.C239_kept`, `Igf.C239_lines`, `Igf.widths_total`, `Interact.C102_partial`, `Interact.C102_refused_partial`, `Interact.C79_kept_partial`, `Interact.C80_inside_partial`, `Interact.C80_refuted`, `Interact.C80_wires_partial`, `Interact.C81_distance_zero`, `Interact.C81_gain_refuted`, `Interact.C81_ranges`, `InvQuant.C196_lines`, `InvQuant.C197_coded`, `InvQuant.C198_silent`, `Limiter.C100_fade`, `Limiter.C100_later`, `Limiter.C100_off`, `Limiter.C42_threshold`, `Limiter.C43_level`, `Limiter.C44_framing`, `Limiter.C44_split`, `Limiter.C44_transparent`, `Limiter.C65_no_amplify`, `Lpd.C157_numbers`, `Lpd.C157_prefix`, `Lpd.C158_entries`, `Lpd.C158_most`, `Lpd.C159_coded`, `Lpd.C159_decoded`, `Lpd.C160_refuted`, `Lpd.C160_separated`, `Lpd.C161_frequencies`, `Lpd.C163_inside`, `Lpd.C163_lattice`, `Lpd.C163_numbers`, `Lpd.C164_frame`, `Lpd.C164_unique`, `Lpd.C166_lines`, `Ltpf.C249_lags`, `Ltpf.C250_causal_partial`, `Ltpf.C250_causal_refuted`, `Ltpf.C251_frame`, `Ltpf.C251_stream`, `Ltpf.C252_steady`, `Ltpf.C252_taps`, `Ltpf.C253_off`, `Ltpf.C254_limits_partial`, `Ltpf.C255_no_division_by_zero`, `Ltpf.C287_energy`, `Ltpf.C287_prediction`, `Ltpf.C288_transition`, `Ltpf.off_after`, `Ltpf.process_silent`, `Mct.C45_pairs`, `Mct.C67_parse_safe`, `Mct.C68_angles_partial`, `Mct.C68_refuted`, `Mct.C69_energy`, `Mct.C69_total`, `Mct.C70_even_fails`, `Mct.C70_full_band_partial`, `Mct.C70_refuted`, `Mct.C70_rotation_partial`, `Mhas.C09_unhandled_skipped`, `Mhas.C10_sync`, `Mhas.C11_labels_partial`, `Mhas.C11_refuted`, `Mhas.C17_earcon_tables_partial`, `Mhas.C17_refuted`, `Mhas.C18_config_safe`, `Mhas.C18_frame_size_partial`, `Mhas.C18_refuted_lookup`, `Mhas.C18_refuted_samples`, `Mhas.C19_sample16`, `Mhas.C19_sample24`, `Mhas.C19_sample32`, `Mp4.C309_groups_partial`, `Mp4.C309_groups_partial`, `Mp4.C309_refuted`, `Mp4.C311_refuted`, `Mp4.C311_two_partial`, `Mp4.C312_refuted`, `Mp4.C312_switches_partial`, `Mp4.C313_conditions_refuted`, `Mp4.C313_lost_refuted`, `Mp4.C313_presets_partial`, `Mp4.C313_refuted`, `Mp4.C314_refuted`, `Oam.C114_absolute_partial`, `Oam.C114_refuted`, `Oam.C115_descaled`, `Oam.C39_ranges_partial`, `Oam.C39_refuted`, `Oam.C40_counter_refuted`, `Oam.C40_no_overflow_partial`, `Oam.C40_refuted`, `Oam.C59_arrays`, `Oam.C61_differences_partial`, `Oam.C61_refuted`, `Oam.C63_absolute_partial`, `Oam.C63_intra_one`, `Oam.C64_intra_many_partial`, `ObjLayout.C296_sort`, `ObjLayout.C297_corners`, `ObjLayout.C297_poles`, `ObjLayout.C298_around`, `ObjLayout.C298_count`, `ObjLayout.C298_refuted`, `ObjLayout.C299_behind_partial`, `ObjLayout.C299_refuted_place`, `ObjLayout.C299_refuted_symmetry`, `ObjLayout.C300_corners`, `ObjLayout.C301_added`, `ObjLayout.C301_back_partial`, `ObjLayout.C301_front_partial`, `ObjLayout.C301_ranges`, `ObjLayout.C301_refuted`, `ObjLayout.C302_clean`, `ObjRen.C289_flat`, `ObjRen.C289_law`, `ObjRen.C290_energy`, `ObjRen.C290_number`, `ObjRen.C290_unit`, `ObjRen.C291_height`, `ObjRen.C291_refuted`, `ObjRen.C292_end`, `ObjRen.C292_first`, `ObjRen.C292_frame`, `ObjRen.C292_step`, `ObjRen.C293_full_partial`, `ObjRen.C294_energy`, `ObjRen.C294_equal`, `ObjRen.C294_real`, `ObjRen.C294_refuted`, `ObjRen.C294_settled`, `ObjRen.C295_heard_partial`, `ObjRen.C295_refuted`, `ObjRen.C295_silent`, `ObjRen.C315_choice`, `ObjRen.C316_cone`, `ObjRen.C316_edge`, `ObjRen.C317_height`, `ObjRen.C317_level`, `ObjRen.C317_mirror`, `ObjRen.C318_blend`, `ObjRen.C318_narrow`, `ObjRen.C318_same`, `ObjRen.C318_wide`, `Ops.C35_abs`, `Ops.C35_add`, `Ops.C35_add3`, `Ops.C35_mul`, `Ops.C35_negate`, `Ops.C35_shl`, `Ops.C35_sub`, `Ops.C36_norm`, `Ops.C37_sqrt`, `Ops.C38_add`, `Ops.C38_mult`, `Ops.C38_sat32`, `Ops.C38_sub_always`, `Ops.C38_sub_partial`, `Ops.C38_sub_refuted`, `Pcm.C27_frame`, `Pcm.C27_sample16`, `Pcm.C27_sample24`, `Pcm.C28_refuted`, `Pcm.C28_sample32_partial`, `Pcm.C29_trim`, `Preroll.C30_preroll_runC`, `Preroll.C30_unit`, `Preroll.C30_unit_too_long`, `Preroll.C50_change_partial`, `Preroll.C50_sequence_partial`, `Preroll.C55_last_unit_partial`, `Props.Bpf.C337_accepted`, `Props.Bpf.C337_filtered`, `Props.Bpf.C337_refused`, `Props.Bpf.C338_off`, `Props.Bpf.C339_periodic`, `Props.Bpf.C340_ahead_partial`, `Props.Bpf.C340_refuted`, `Props.Fac.C334_eight`, `Props.Fac.C335_ends_partial`, `Props.Fac.C335_ends_partial`, `Props.Fac.C335_kept`, `Props.Fac.C335_refuted`, `Props.Fac.C335_written`, `Props.Fac.C336_exchanged`, `Props.Fac.C336_refuted`, `Props.HoaPan.C356_waves`, `Props.HoaPan.C357_avoid`, `Props.HoaPan.C357_equations`, `Props.HoaPan.C357_least`, `Props.HoaPan.C358_norm_partial`, `Props.HoaPan.C358_refuted`, `Props.HoaPan.C359_invertible`, `Props.HoaPanMem.C360_inside_partial`, `Props.HoaPanMem.C360_prepared_partial`, `Props.HoaPanMem.C360_refuted`, `Props.HoaPos.C351_back`, `Props.HoaPos.C351_cartesian`, `Props.HoaPos.C351_spherical`, `Props.HoaPos.C352_refuted`, `Props.HoaPos.C352_unit_partial`, `Props.HoaPos.C353_plane`, `Props.HoaPos.C353_types`, `Props.HoaPos.C354_poles`, `Props.HoaPos.C354_solid`, `Props.HoaPos.C355_distance`, `Props.HoaPos.C355_inclinations`, `Props.HoaPos.C355_types`, `Props.HoaSvd.C345_sorted`, `Props.HoaSvd.C346_decomposed`, `Props.HoaSvd.C347_fits_partial`, `Props.HoaSvd.C347_refuted`, `Props.HoaSvd.C348_inverse_partial`, `Props.HoaSvd.C348_refuted`, `Props.HoaSvd.C349_kept_partial`, `Props.HoaSvd.C349_refuted`, `Props.HoaSvd.C350_energy`, `Props.HoaSvd.C350_matrix`, `Props.Imdct.C327_cosine`, `Props.Imdct.C327_sine`, `Props.Imdct.C328_cosine`, `Props.Imdct.C328_sine`, `Props.Imdct.C329_signal`, `Props.ImdctMixed.C330_cosine`, `Props.ImdctMixed.C330_cosine`, `Props.ImdctMixed.C330_sine`, `Props.ImdctMixed.C330_sine`, `Props.ImdctMixed.C331_refuted`, `Props.ImdctMixed.C332_cosine`, `Props.ImdctMixed.C332_sine`, `Props.ImdctMixed.C333_signal`, `Props.LpdBpf.C341_fades`, `Props.LpdBpf.C342_off`, `Props.LpdBpf.C343_channels_partial`, `Props.LpdBpf.C343_refuted`, `Props.LpdBpf.C344_filtered`, `Props.LpdBpf.C344_refused`, `Props.ObjHull.C362_once_partial`, `Props.ObjHull.C363_closed`, `Props.ObjHull.C363_initial`, `Props.ObjProj.C364_corner`, `Props.ObjProj.C364_flat`, `Props.ObjProj.C364_height`, `Props.ObjProj.C364_turned`, `Props.ObjProj.C365_fits`, `Props.ObjProj.C365_hull`, `Props.ObjProj.C365_outside`, `Props.ObjSortIdx.C361_sorted`, `Props.Tdac.C323_frame`, `Props.Tdac.C323_frame`, `Props.Tdac.C324_signal`, `Props.Tdac.C325_flipped`, `Props.Tdac.C325_kept_partial`, `Props.Tdac.C325_refuted`, `Props.Tdac.C326_as_zero`, `Props.Tdac.C326_refuted`, `Resamp.C256_frame`, `Resamp.C256_stream`, `Resamp.C257_last_partial`, `Resamp.C257_refuted`, `Resamp.C258_level`, `Resamp.C258_symmetric`, `Resamp.C259_no_effect`, `Resamp.C259_plain_partial`, `Resamp.C259_refuted`, `Resamp.C260_refuted`, `Resamp.C260_safe_partial`, `Resamp.start_follows`, `Scf.C175_coded`, `Scf.C175_refines`, `Scf.C176_enough_partial`, `Speaker.C73_layout_partial`, `Speaker.C73_too_many_partial`, `Speaker.C75_ends_partial`, `Speaker.C76_angles_partial`, `Speaker.C77_pair_partial`, `Tns.C199_decodes_partial`, `Tns.C199_inverse_partial`, `Tns.C199_refuted`, `Tns.C199_windows_partial`, `Tns.C200_accepted`, `Tns.C201_limit`, `Tns.C202_lpd_partial`, `Tns.C202_refuted`, `Tns.C202_start`, `Tns.C203_refuted`, `Tns.C203_unfiltered_partial`, `Tns.C204_array`, `Tns.C204_safe`.
* `Quot.sound`, `propext` (95): `Acelp.lags_within`, `Api.C20_delete_all`, `Api.C20_no_leak`, `Api.C21_refuted`, `Api.C25_terminates_partial`, `Api.C26_refused`, `Api.C54_create_writes_partial`, `Arith.C32_refuted`, `Arith.C33_counter_irrelevant`, `Asi.C15_accepted`, `Avq.C154_refuted`, `Avq.C154_shift_refuted`, `Avq.C155_refuted`, `C05_writer_fields`, `C06_read32_unaligned_refuted`, `Config.C124_default_partial`, `Config.C126_refuted`, `Config.C85_refuted`, `Config.C90_refuted`, `Config.C92_refuted`, `Config.C95_refuted`, `Config.C97_refuted`, `Config.C99_extensions_partial`, `Config.C99_groups_partial`, `Dmx.C274_below`, `Dmx.C275_kinds`, `Dmx.C281_equalisers_partial`, `DrcApply.C150_refuted`, `DrcApply.C150_stale_refuted`, `DrcApply.C152_partial`, `DrcSel.peak_partial`, `Fd.C179_no_error`, `FdMix.C188_filters`, `Hoa.C223_symbols`, `Hoa.C227_use_partial`, `Hoa.C231_table_partial`, `Hoa.C234_order_partial`, `Hoa.C236_kept`, `Hoa.C240_linear`, `Hoa.C240_parts`, `Hoa.C245_ambience`, `Hoa.C245_cleared`, `Hoa.C246_change`, `Hoa.C246_sent`, `Hoa.C246_steady`, `Hoa.C271_weights`, `Hoa.C272_others`, `Huff.C66_refuted`, `Igf.C211_refuted`, `Igf.C213_exponent`, `Igf.C213_level_partial`, `Igf.C216_high`, `Igf.C217_cover`, `Igf.C218_refuted`, `Interact.C102_order_refuted`, `Interact.C102_refuted`, `Interact.C47_first_partial`, `Interact.C47_refuted`, `Interact.C47_second_refuted`, `Interact.C78_inside_partial`, `Interact.C79_wire_refuted`, `Interact.C79_zoom_refuted`, `Interact.C81_distance`, `Lpd.C158_refuted`, `Lpd.C161_sent`, `Lpd.C162_fill`, `Lpd.C162_injective`, `Lpd.C162_modes`, `Lpd.C162_numbers`, `Lpd.C163_refuted`, `Lpd.C165_size`, `Mhas.C08_progress`, `Mhas.C08_returns`, `Mhas.C08_terminates`, `Mp4.C309_safe_partial`, `Mp4.C314_safe_partial`, `Mp4.C314_text_refuted`, `Oam.C114_differences_partial`, `Oam.C63_refuted`, `Oam.C64_refuted`, `ObjRen.C293_first_partial`, `Preroll.C30_preroll_safe`, `Preroll.C50_refuted_empty`, `Preroll.C50_refuted_long`, `Preroll.C56_sequence_partial`, `Props.ObjHull.C362_refuted`, `Scf.C174_decode`, `Scf.C177_range_partial`, `Scf.C177_range_refuted`, `Speaker.C72_layouts`, `Speaker.C72_rejects`, `Speaker.C74_flex_safe`, `Speaker.C76_refuted`, `Speaker.C77_refuted`, `Tns.C199_bands`.
* `propext` (51): `Acelp.lags_within_refuted`, `Api.C101_reported_partial`, `Api.C26_no_side_effects`, `Arith.C57_refuted`, `Asi.C52_refuted`, `Config.C124_refuted`, `Config.C127_refuted`, `Config.C86_fresh_partial`, `Config.C86_refuted`, `Config.C89_refuted`, `Config.C91_refuted`, `Config.C93_refuted`, `Config.C94_refuted`, `Config.C94_refuted_config`, `Config.C99_refuted`, `Dmx.C274_length`, `EnhOam.C60_refuted`, `ExtRend.C267_refuted`, `ExtRend.C268_refuted`, `ExtRend.C269_refuted`, `Fd.C179_fits_refuted`, `Fd.C185_refuted`, `FdStream.C205_tcx`, `Fdp.C193_spacing`, `Hoa.C222_refuted`, `Hoa.C224_refuted`, `Hoa.C227_refuted`, `Hoa.C228_flag_partial`, `Hoa.C228_refuted`, `Hoa.C231_refuted`, `Hoa.C234_refuted`, `Hoa.C237_refuted`, `Igf.C210_refuted`, `Igf.C213_refuted`, `Igf.C215_refuted`, `Interact.C47_second_no_error`, `Interact.C78_refuted`, `Lpd.C165_sizes`, `Mct.C71_refuted`, `Mct.C71_single_partial`, `Mp4.C310_refuted`, `Mp4.C314_switch_refuted`, `Ops.C37_range_needed`, `Preroll.C55_refuted`, `Preroll.C56_preroll_change_partial`, `Scf.C176_truncated_refuted`, `Speaker.C73_bad_layout`, `Speaker.C73_overrun`, `Speaker.C73_refuted`, `Speaker.C73_wild_read`, `Speaker.C75_refuted`.
