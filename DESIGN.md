# Formal model of Alexandria: design

## 1. Layout

Every component of `/repo` that is modelled has a directory `lean/Verif/<Component>/` with

* `Model.lean`  – executable Lean functions transcribed from the C++ code. Each definition cites file and lines.
* `Spec.lean`   – the small independent specification (what a user expects), written without the model's helpers.
* `Lemmas.lean` – helper lemmas.
* `Props.lean`  – the property theorems (named `C<nn>_...`), each followed by an `example` that a concrete
  non-trivial case meets its hypotheses, and by witness theorems (`..._fails...`, `..._violated...`) where the code
  does not have the property.
* `Examples.lean` (some components, numbered where there are several) – theorems with several hypotheses applied to
  concrete values, with every hypothesis discharged.

`properties.jsonl` lists the properties, `MANIFEST.json` maps them to theorems, `seeded/LOG.jsonl` logs mutation tests.

## 2. Modelling conventions

* C++ containers become `List`/functions; `size_t` becomes `Nat` unless wrap-around is the point (then it is written
  out as arithmetic modulo 2^64 or `Int`).
* Floating point numbers become elements of an arbitrary linearly ordered field (or `ℚ`/`ℝ`): rounding, NaN (but see `NotANumber/`), infinities
  and overflow are NOT modelled, except where stated: theorems with `machine` or `double` in their name and those of the files `*Round*`, `ModesFloat*`, `UMatrix*` and `KdTree` are about rounded arithmetic
  (`Verif/Common/Rounding.lean`: any monotone, symmetric, idempotent rounding; `Verif/Common/Binary.lean`: nearest, ties to even, any number of bits, exponents unbounded; `Verif/Common/Gradual.lean`: the same with subnormal numbers; `Verif/Common/Ieee.lean`: infinities, NaN and overflow). `Elements::isEqual` (a comparison with a tolerance in ulps) becomes exact equality.
* An exception is an `Except`/`Option` outcome, undefined behaviour is a distinct outcome (`Outcome.ub`), so theorems
  say explicitly when the code is outside the C++ standard.
* Mutation becomes a function that returns the new state; threads become interleaved steps of a labelled transition
  system, and theorems quantify over all step sequences.
* External code (CCfits, CFITSIO, boost, Elements, the OS) is a parameter or a stated assumption.

## 3. Trusted base

* The Lean 4.33.0 kernel, and the axioms `propext`, `Classical.choice`, `Quot.sound` that core/Mathlib use. No axiom of our own,
  no `sorry`, no `native_decide`, no `bv_decide`. `AXIOMS.md` lists the axioms that each theorem of `MANIFEST.json` depends on.
* The transcription from C++ to Lean in the `Model.lean` files (done by reading; nothing ties it mechanically to the code).
* The reading of the C++ standard library and boost functions used (`std::lower_bound`, `std::nth_element`,
  `boost::io::quoted`, ...), described beside each model definition. Section 6 lists exactly which code is modelled.

## 4. Per property: what is modelled and how it is proved

| id | what is modelled | how it is proved |
|----|------------------|------------------|
| C01 | `KdTree/_impl/KdTree.icpp` whole: leaf scan, split at the middle of any outcome of `std::sort`, pruned query, every operation rounded | Induction over tree construction: the query result is a permutation of `List.filter`; monotonicity of the rounding keeps pruned points outside of the radius |
| C02 | strides/offset arithmetic, `at` checks | mixed-radix induction over the shape |
| C03 | view = (shape, strides, offset); slice, rslice | refinement: every view denotes a function from coordinates to cells, slices compose |
| C04 | iterator offset formula | row-major rank over views reached by slicing |
| C05 | reshape | as C04; fails for right slices: witness, partial theorem and the exact effect on every view (`ExactProps.lean`) |
| C06 | concatenate with all bookkeeping fields | fails for `size()` and iteration: witness; access by coordinates; exact effect of one call by induction over the copying loop, of any number of calls by induction over the calls; undefined on proper parts |
| C07 | copy | fails for slices: witness, partial theorem for whole arrays, exact effect on every slice |
| C08 | unravel_index loop | mixed-radix inverse |
| C09 | `NpyCommon.h` 109-315, `NpyReader.icpp`, `NpyWriter.icpp` on byte lists (`Npy/Model.lean`); `boost::regex` as a deterministic matcher, `boost::split`/`trim`/`lexical_cast` in `Common/Strings.lean` | the header is cut into pieces in which a keyword cannot occur (`Skips`); the field loop, the digits and the element bytes are inverted by induction; witnesses by evaluation |
| C10 | padding of `writeNpyHeader` | arithmetic modulo 64 for all lengths (also beyond 2^32) |
| C11 | LRU manager state machine with callbacks as parameters | invariant over all histories |
| C12 | eviction loop | decision theorem on the eviction loop |
| C13 | handler state machine (accessors, idle list) | invariant; leak of a differently typed descriptor in getWriteAccessor is a violation: witness + partial |
| C14 | shared/exclusive lock protocol of accessors | invariant over all schedules; `try` variants throw – witness |
| C15, C16 | workers/queue/blocker as a transition system | invariants over all interleavings |
| C17–C19 | index helper, iterator | mixed-radix arithmetic; slice iteration by carry analysis; slices of grids with an empty axis exactly (`Grid/ExactProps.lean`) |
| C20 | slicing constructor | fails for chained fixings: witness, partial for one fixing, exact report of every chain (`Grid/ExactProps.lean`) |
| C21 | gridContainerToTable with the traits as parameters (`Table/GridTableModel.lean`), on top of the models of the grid and of the table | `Table/GridTableProps.lean`: the recursion over the axes equals a map over all tuples of knots (`unfold_eq`), which are the coordinates of the slice in the order of the iteration (`tuples_slice`) |
| C22, C23 | binning, clip, getStats | sums over lists; integer square-root bins exactly (`Histogram/ExactProps.lean`) |
| C26 | mapping file parser, exclusion loops | list induction; violated for repeated filters; `Configuration/DetectProps.lean`: exactly when |
| C27 | `findWildcardNames` | membership; violated |
| C54 | hubbleDistance, hubbleParameter, comovingDistance, transverseComovingDistance, luminousDistance, distanceModulus, dimensionlessComovingVolumeElement, CosmologicalParameters (`Physics/Model.lean`) over the reals; results that are not finite are `none`; the integration scheme and the test for 0 are parameters | `Physics/Props.lean`: algebra for arbitrary schemes; for the exact integral monotonicity, derivative and four closed forms by the fundamental theorem of calculus |
| C76 | stream reads into zeroed buffers | as C09, with a body of any length; `Npy/ExactProps.lean`: cuts at any byte but those of the dictionary |
| C77 | `parseNpyDict` on the text that numpy writes (specified separately in `Npy/Spec.lean`) | as C09 |
| C78 | `MappedContainer::resize`, `createMmapNpy`; the mapping is the file | consistency is an invariant of create and resize |
| C60 | attribute names of slices | witness; partial for whole arrays; what the names stand for in slices from either side |
| C61 | `operator==` | loop invariant; witness after concatenate; exact result for all arrays |
| C62–C64 | `sum`, `argmax`/`argmin`, `trapz` along an axis (`Operations.icpp`) | loops against sums over coordinates |
| C65, C66 | `GridAxis::infimum`, slices sharing cells | search lemma; refinement of cells |
| C67–C69 | edges, bins, interpolated median, clipping bounds of histograms | sums over lists; witnesses; the exact error of the median (`Histogram/ExactProps.lean`) |
| C70–C72 | thread pool: exception pointer accesses, tasks after an exception, destructor | invariants over all interleavings; witnesses |
| C73–C75 | `FileManager::open` and the handler table with threads, self-deadlock of `getAccessor` | invariants over all interleavings (`FilePool/Conc.lean`); witnesses |
| C55 | `findBMU_impl` over the cells in iteration order, L2 distances | invariant of the loop; order isomorphism of the square root |
| C56 | `SOMTrainer::train`, the restraints and neighbourhoods | invariant over all iterations and samples: membership in an arbitrary convex set |
| C57 | `linearUnitDisk` with `size_t` subtraction | agreement with the geometric disk for cells not beyond the BMU; violated otherwise |
| C58 | the three sampling policies, random draws as parameters | induction over the selection loop; surjectivity |
| C59 | archive and FITS forms of a map | round trip by induction over cells; pixel layout |
| C79 | `computeUMatrix` | neighbour list characterised (membership, no repetition), folds |
| C80 | `project_impl` | induction over the inputs |
| C81 | `kohonen` function object with its buffer | invariant of the buffer over call sequences; real analysis of exp and log |
| C82 | `linear`, `exponentialDecay` | algebra |
| C28 | `QualifiedName` constructors, hash, comparison, `belongsInGroup` | splitting and joining are inverse on slash-free parts; prefix lemma |
| C29 | `CachedProvider` with a log of the calls passed on | invariant over all request sequences |
| C30 | `listContents`, the constructor loop | prefix lemma; invariant over the files |
| C83 | `getOrder`, `getRecursiveDirectoryContents` | permutation and sortedness; induction over depth and entries; exactly when each file is listed once; violated for repeated names |
| C84 | `getParameter`, the regular expression as a scanner | exact decomposition of a line; induction over lines; violated for empty values |
| C85 | `isDatasetFile` | induction over lines; violated without final newline |
| C86 | `StringFunctions`, `XYDataset::factory` | index computation with wrap-around; violated for strings of slashes |
| C24 | `ConfigManager::initialize`, `recInitialize` with a trace of hook calls | invariant of the recursion; permutation of the trace |
| C25 | `closeRegistration`, `checkForCircularDependencies` with fuel | fuel monotonicity, height of acyclic graphs; non-termination witness |
| C87 | `registerConfiguration`, `declareDependency` with fuel | induction over the recursion; topological order |
| C88 | all calls as steps | induction over call sequences; violated by throwing hooks |
| C89 | `getIdColumnFromOptions`, `SpecZCatalogConfig` | case analysis with size_t arithmetic; violated for the default |
| C90 | `autoDetectFormatType`, also with the memory around its buffer | prefix lemma; violated (undefined); `Configuration/DetectProps.lean`: for any content of the memory |
| C31 | `Polynomial`, `Differentiable::integrate`, `multiplyPolynomials` | list induction; Mathlib derivatives and interval integrals |
| C32 | `Piecewise`: constructor, call, integrate | sortedness of the knots, induction over the integration loop; interval integrals over the reals |
| C33 | `overlappingKnots`, `multiplyPiecewises`, dispatch of `multiply` (fuel) | loop invariants of the merge and of the piece search; violated for disjoint ranges and jumps |
| C34 | `interpolate` (sorting check, `dedupLoop`, extrapolation knots), `linearInterp` | induction over the segments, characterisation of the piece search |
| C35 | `splineInterp`: forward and backward sweep, pieces, derivative | invariant of both sweeps: the natural spline equations; derivatives of the pieces over the reals |
| C36 | `simple_interpolation` | case analysis of the upper bound; violated at repeated abscissae; `SimpleExactProps.lean`: every table |
| C37 | `InterpN` constructors and calls over the NdArray model, `interpn` | induction over the axes with an abstract characterisation of one axis; slices by C03, iteration by C04 |
| C38 | `InverseCumulative` for a piecewise-linear density and for a discrete one, `solveSquare` with the square root as a parameter (`InverseModel`) | the result has exactly the required mass before it except within 1e-8 of the beginning of a rising segment; mass = integral of the density; violations by evaluation |
| C39 | `Cumulative::fromPdf`, `findMinInterval` with its two iterators as rests of the list (`CumulativeModel`) | loop invariant over the outer iterator: the inner one is the first position with enough weight; minimality for the weight the code counts |
| C40 | `PdfModeExtraction.cpp` completely; accesses checked, mean of an empty mode `none` (`ModesModel`) | loops of `catchPeak` characterised by their end conditions; induction over the extractions with the residual density; conservation of area; insertion keeps the list sorted |
| C41 | `SimpsonsRule::operator()`, direct and refining (`NumericModel`) | the direct evaluation is a weighted sum; the sums of even and odd samples are recombined; closed forms for power sums; antiderivative |
| C91 | `Cumulative::findValue`, `normalize` | characterisation by positions; scaling invariance by induction over the loops |
| C92 | `Cumulative::findCenteredInterval` | from C91; violated in general; `CumulativeExactProps.lean`: uniqueness of trays, exactly when |
| C93 | `solveSquare` | algebra over an ordered field with a square root |
| C94 | `AdaptativeIntegration::operator()` with Simpson's rule | induction over the orders with C41 |
| C95 | `guess_h` (rounding as a parameter), `derivative`, `derivative2nd` | mean value theorem, twice for the second derivative |
| C42 | `AsciiReader` on a text with a stream position and flags (`Table/AsciiModel`) | each loop over the stream is a loop over the lines that are left; refinement of the list of data lines for every sequence of calls |
| C45 | `ColumnDescription`, `ColumnInfo`, `Row`, `Table` (`Table/Model`) | the constructors accept exactly the well formed values |
| C96 | `getComment`, `_peekLine` | loop over the lines that begin with the comment indicator; the columns are a counterexample |
| C43 | AsciiWriter (addComment, addData with init and append), quoted, typeToKeyword, calculateColumnLengths, padding, and the reader of C42 on the text written: `Table/AsciiModel.lean` | `Table/WriterProps.lean`: the written text is a list of lines whose tokens are known (`written`, `rowLine_trim`), the header is parsed back (`parse_ok`, `names_ok`, `descriptions_ok`), then the loops of the reader are those of C42. The unrestricted claim `C43_full` is refuted |
| C44 | typeToKeyword, keywordToType | cases on the types; the types of all the keywords that are read (`keywordToType_known`) |
| C97 | parseRow (the loop over the tokens in readImpl), convertToCellType, Row constructor | `Table/RowProps.lean`: the tokens of a line as an inductive relation, induction over it |
| C46 | getTDIM, parseTDIM: `Table/FitsModel.lean` | `Table/FitsProps.lean`: the text is a comma separated list of numerals (`tdimText_eq`), which is split and converted back. `C46_full` is refuted for one element |
| C47 | FitsReader::readImpl, skip, hasMoreRows, rowsLeft on an extension with known columns; the library is abstract | `Table/FitsReaderProps.lean`: refinement of the list of the rows that are left, by induction over the calls. `C47_full` is refuted |
| C48 | getAsciiFormatList, getBinaryFormatList, asciiFormatToType, binaryFormatToType | `Table/FitsProps.lean`: format of each type computed, then parsed back (`format_sized`); which columns are accepted (`C48_accepts`). `C48_full` is refuted |
| C49 | CastVisitor for all target types (`Table/CastModel.lean`); strtoll is modelled, floating point conversions are parameters | `Table/CastProps.lean`: cases on the types; a grammar for numerals (`Begins`), with which strtoll is shown to agree in both directions; induction for vectors |
| C98 | autoDetectColumnNames | `Table/NamesProps.lean`: the loop over the lines computes the list specification (`names_loop`) |
| C50 | Catalog: map from identifications to positions, find, size (`Catalog/Model.lean`) | `Catalog/CatProps.lean`: invariant of the loop of the constructor (`Known`) |
| C51 | PhotometryAttributeFromRow: constructor, convertFromMag, createAttribute (`Catalog/Model.lean`); doubles are NaN, infinities or elements of an ordered field | `Catalog/PhotProps.lean`: equivalence of the code with a decision table (`Judged`), induction over the filters |
| C52 | FluxErrorPair::operator== | `Catalog/CatProps.lean`: cases |
| C53 | Photometry: constructor, find, iterators | `Catalog/CatProps.lean`: induction over the names |
| C99 | CatalogFromTable, CastSourceIdVisitor | `Catalog/CatProps.lean`: induction over the rows, C50 |
| C100 | Source::getAttribute | `Catalog/CatProps.lean`: induction |
| C101 | PdfFromRow, Pdf, SpectroscopicRedshiftAttributeFromRow | `Catalog/CatProps.lean`: induction over the names |
| C102 | CatalogConfig, the three dependent configurations and a program that uses them (`Configuration/CatalogModel.lean`), on the models of the readers, of the band mapping and of the source catalogue | Composition of C26, C51, C53, C89, C99, C101 through inversion of the whole run; a separate no-undefined-behaviour theorem; witness with a doubled filter |
| C103 | Calls in the four states, and the life of an object | Induction over the calls of each state; `getFilename` against its documentation refuted |
| C104 | `addPdfColumn` and the maker of densities | Induction over the additions, with a lemma on `emplace` and lookup |
| C105 | `NdSampler` and `createSamplerFromGrid` (`MathUtils/SamplerModel.lean`) on the models of `NdArray`, `InterpN` and `InverseCumulative`; the generator is the sequence of its uniform numbers | Induction over the axes: the marginal of an array is again an array with the remaining axes (C62, C64); the interpolator has the multilinear values of the specification (from C37); the inverses give quantiles (C38) |
| C106 | `FitsWriter`, `TableWriter::addData`, `populateColumn` and the opening of a table by `FitsReader` on files that are lists of extensions (`Table/FitsFileModel.lean`); the libraries are a parameter outside of the described behaviour | Invariant: after any number of chunks the extension holds exactly the rows so far in columns that accept the cells of the first table; formats and dimensions are read back by C48; the reader by C47 |
| C107 | `gridFitsExport`, `addGridAxesToFitsFile`, `gridFitsImport`, `readAxis`, `readAxesTuple` of `FitsSerialize.icpp` on the files of C106 (`Grid/FitsModel.lean`); the iteration is that of C19 | The iteration visits the cells of a slice in the order of the coordinates with the fixed ones at 0 (`cells_at`), which is the order of the new grid; the tables of the axes by the lemmas of C106 and C48; names by C28; induction over the axes from both ends |
| C108 | `gridExport`, `gridImport`, `save`/`load` and `save_construct_data`/`load_construct_data` of grids, axes, tuples and qualified names on streams that are lists of values (`Grid/ArchiveModel.lean`) | Loading inverts storing for each part and any rest of the stream, by induction over knots, axes (last to first) and the positions of the iteration; the order of the cells as in C107 |
| C109 | `getName`, `getParameter`, `getDataset`, `isDatasetFile` of `FitsParser` on the FITS files of C106 (`XYDataset/FitsParserModel.lean`) | Composition with the round trip of tables (C106) and induction over the rows; file names as in C86 |
| C110 | The iterators of `NdArray`: construction, all movements, comparisons, differences, reading and writing (`NdArray/IterModel.lean`) | Induction over the movements with the position as the abstraction; the written index is unique because the stride is positive; the loop by induction over the remaining elements |
| C111 | `fixAxisByIndex`, `fixAxisByValue`, `fixAllAxes` of the iterators of grids (`Grid/FixModel.lean`) | The position as the number of the coordinates; a forward move is the replacement of one coordinate; induction over the axes from the last to the first |
| C112 | `AsciiParser::getName`, `getDataset` (`XYDataset/AsciiParserModel.lean`) on top of the reader of ASCII tables | The loop of the reader as a function of the data lines (C42), the names of columns (C98), the rows (C97); matching of the regular expression against its language |
| C113 | `mmapNpy`, `MappedContainer`, element access, `copy` (`Npy/MmapModel.lean`); file and private memory as lists of bytes | Simulation between the bytes seen through the mapping and the list of elements, by induction over bytes and over assignments |
| C114 | `FileManager::closeAll` on the pool of C13 (`FilePool/CloseAll.lean`), any order of the map | Induction over the files with the invariant of the pool; counting of idle, used and open descriptors |
| C115 | `FileManager::hasHandler` on the table of C75 (`FilePool/CloseAll.lean`) | Invariant over all interleavings |
| C116 | `getUniqueManagerId` (`Configuration/IdModel.lean`); the clock is the list of its readings | Induction over the number of calls and over the readings |
| C117 | `ConfigManager::getInstance` (`Configuration/IdModel.lean`) | Invariant of the map (ids without repetition) over all sequences of calls |
| C118 | Constructor, `getDataset`, `getParameter` (`XYDataset/ProviderModel.lean`) on top of the listing (C83), the names (C28, C30) and the ASCII parser (C84, C85, C112) | Induction over the files; decomposition of the paths below a directory |
| C119 | `InitFunc.cpp` and the constructor of `SOM` with function objects that carry the state of their engine (`SOM/InitModel.lean`); programs of makings of functions and maps | Induction over weights, cells and programs |
| C120 | `Sqrt.h`, `Scott.h` with the operations of `getBinIndex`, `getEdge` and `computeBins` rounded; weights of type `float` | Relative error bounds of rounding (`Common/Binary.lean`), induction over the counting loop; counterexamples evaluated by the kernel |
| C121 | `Cumulative.cpp` with every operation rounded | Monotonicity of the rounding; the invariant of the two-pointer search for an abstract count; error bound by induction over the sum; the counterexample is evaluated by the kernel |
| C122 | `InverseCumulative.icpp`, `Solvers.cpp` with every operation rounded; the square root is a parameter | Monotonicity of the rounding along the construction of the cumulative and the search; the counterexample by evaluation with the kernel |
| C123 | `linear.cpp`, `simple_interpolation` and the evaluation of polynomials with every operation rounded; overflow, underflow and fused operations are not modelled | Monotonicity of the rounding on each piece; the relative errors added up; the counterexamples by evaluation with the kernel |
| C124 | `L2::distance`, `findBMU` and `SOMTrainer::train` with every operation rounded; the square root is any function with one relative error; overflow, underflow and fused operations are not modelled | Relative errors added up over the fold; monotone rounding for the step; induction over iterations and objects for the range; the counterexamples by evaluation with the kernel |
| C125 | Infinite executions of the state machine of C15 (`Fair.lean`): schedules, fairness, polling | Measures on the program counters that decrease with the steps of one thread and are not increased by the others; a periodic schedule as counterexample |
| C126 | The state machine of C15 with submissions by running tasks; `submit` without workers as a recursive function on jobs that use the pool (`NestedModel.lean`) | The invariant of C15 without the part on the client; induction over executions; the counterexamples by evaluation |
| C127–C128 | `getAccessor`, the accessors, `FileManager::open`/`close` and the LRU manager in steps between lock operations, for any number of requests in parallel (`FilePool/Threads.lean`) | Invariant of 20 clauses over all interleavings; witnesses by evaluation; a count of the requests that may still open a file |
| C129 | `FileManager::closeAll` in parallel with requests (`FilePool/Threads.lean`, stages `sweep…`) | The invariant of C127 extended to these stages; a second invariant (pending blocks are alive) for readers; induction over the collected blocks for a call that is alone |
| C130 | `Polynomial::operator()`, `derivative`, `indefiniteIntegral`, `Differentiable::integrate`, `multiplyPolynomials` with every operation rounded (`PolyRoundModel.lean`) | Induction over the loops with the calculus of `Common/Close.lean`; the exact case by induction with the partial sums below `2^p` |
| C131 | `solveSquare` with every operation rounded (`machineSolve` in `InverseRoundModel.lean`), also with infinities and NaN (`Overflow/SolveModel.lean`); of `sqrt` only that its square is right up to two roundings | `Common/Close.lean`: error of the discriminant, of the root and of its square; counterexamples evaluated by the kernel |
| C132 | programs over the calls of `NdArray` (`Program.lean`), with the functions of `Model.lean` | `ProgramSpec.lean`: arrays as views of functions of coordinates, without strides and offsets; simulation relation between containers with offset and strides and such views, kept by each call; induction over the program |
| C133 | `sum` and `trapz` (`Operations.lean`, which is generic in the arithmetic) with every operation rounded (`NdArray/RoundModel.lean`) | `sumAxis_fold`, `trapz_fold`: the results for any arithmetic; `Common/Close.lean`: errors of a loop that adds up rounded terms; monotonicity of rounding |
| C134 | both `SimpsonsRule::operator()` with every operation rounded (`NumericRoundModel.lean`) | `Common/Close.lean`: error of the step, of the nodes, of the loop, of the corrections at the ends |
| C135 | `SimpsonsRule` and `AdaptativeIntegration` as for C41 and C94 (`NumericModel.lean`), over the reals | `QuadratureLemmas.lean`: Taylor's theorem; the rule is the sum of cubic and parabolic rules for one step, and the trapezoidal rule with corrections at the ends; `QuadratureProps.lean`: bounds for both evaluations, and the end of the loop |
| C136 | the model of C54 with the adaptive integration of C94 for the integral (`Physics/DistanceModel.lean`) | `DistanceProps.lean`: the inverse Hubble parameter decreases and its fourth derivative is at most 1275; C135 |
| C137 | `stream << x` with the default precision and `boost::lexical_cast` of decimal texts (`Common/FloatText.lean`), used as the text form of numbers in the model of C43 (`Table/FloatTextModel.lean`) | `FloatTextLemmas.lean`: the value of the text is the rounded number, and the rounding to binary keeps the six digits as `2 * 10 ^ 6 < 2 ^ 24`; `FloatTextProps.lean`: what is written depends on the texts only, so C43 applies to the rounded table |
| C138 | `closeRegistration` with its result, `getProgramOptions` of the four configurations of the library (`Configuration/OptionsModel.lean`) | induction over the groups and the configurations; the map of groups stays sorted; distinct names by cases over pairs of the configurations |
| C139 | the model of C112 with the numbers of `Common/FloatText.lean`; `wideFmt` is the repaired writer | `FloatTextExact.lean`: `Binary.rnd` rounds to a nearest number; a decimal within half the distance to the next number of `p` bits is rounded to it, which `n` digits are if `2 ^ p < 10 ^ (n - 1)`; the lines and tokens of the text as in C112; C43 for the repair |
| C140 | programs over the calls of `GridContainer` (`Program.lean`), with the functions of `Model.lean` | `ProgramSpec.lean`: grids as functions of coordinates, variables as grids with fixed axes, without cell numbers and iterators; simulation relation kept by each call; induction over the program |
| C141 | `getStats` with every operation rounded, the sums of the median in the precision of the weights, the assertion (`StatsRoundModel.lean`) | relative error calculus of `Common/Close.lean` by induction over the bins; sums of whole numbers below 2^q are exact, so the loop of the median takes the decisions of the exact one; witnesses by evaluation |
| C142 | the linear and the spline interpolation of C34 and C35 (`InterpModel.lean`), applied to tabulated functions | weighted means of Lipschitz and convex functions; the difference of two natural splines has zero energy, a sum of squares over the pieces; integration by parts on every piece, the sum over the knots telescopes and vanishes at the ends; the Green function of the second derivative on one piece |
| C143 | `GridInterpolation` and `interpn` of C37 (`GridInterpModel.lean`), applied to tabulated functions | one argument after the other is moved from a knot to its place: along its axis the interpolation is affine (C37), so the distance grows by the error of one line at most |
| C144 | the functions of C108 on arbitrary streams (`Grid/ArchiveModel.lean`) | each loading function returns a value that is stored at the beginning of the stream or throws, by induction over knots, axes and cells; a truncated stream that was accepted would be a shorter export of another grid, against C108 |
| C145 | `gridFitsImport`, `readAxis`, `readAxesTuple` on arbitrary files (`Grid/FitsModel.lean`); conversions of the library are assumed to give values or exceptions | each step gives a value with the expected size or an exception, by induction over rows and axes; the loop over the cells takes the first pixels or meets the end of the image |
| C146 | `splineInterpolation` with each operation rounded (`MathUtils/SplineRoundModel.lean`), evaluation of the polynomials as in C130 | pivots of the elimination stay positive with rounding; each computed triple of quadratic coefficients satisfies its equation up to a residual; the matrix is diagonally dominant, so that the largest error is bounded by the largest residual; the remaining steps by counting roundings (`Close`) |
| C147 | `writeNpyHeader`, `writeNpy`, `createMmapNpy`, `MappedContainer::resize` (`Npy/Model.lean`) against a specification of the npy format: tokens of Python, the dictionary, type codes, sizes (`Spec.npyFile` in `Npy/FormatProps.lean`) | the tokens of each piece of the header by induction over names and shape; the parser on these tokens; the length field from C10; number of bytes from the number of elements; mapped files from C78 |
| C148 | `operator<<` with the loops over dimensions and elements (`NdArray/PrintModel.lean`) against `Spec.text`; how one element is written is a parameter | loop over positions by induction on the fuel with the elements of `iterate`; injectivity by splitting at the first comma or bracket |
| C149 | `InterpN::operator()` with both traits and `simple_interpolation` with every operation rounded (`MathUtils/GridRoundModel.lean`); the same constructor as in C37 | both calls take the same branches (`simple_sim`, `node_sim`); induction over the axes for a relation kept by one line (`tree_sim`); magnitude and error of one line from C123; products over the axes |
| C150 | configuration calls of `AsciiReader` and `AsciiWriter` (`Table/AsciiModel.lean`), of `FitsReader` with `readColumnInfo` for fixed names (`Table/ConfigModel.lean`) | characterisation of the loops over names; induction over call sequences with the invariant that columns are known only after reading began; induction over the columns; phases of a writer |
| C151 | `readNpy` with `parseFieldValues` on the texts that numpy writes for plain and structured types (`Npy/NumpySpec.lean`) | induction over the fields: the regular expression matches plain fields as a whole and nowhere else; keywords are found behind the type; then as C09 |
| C152 | the test, the assignment and the read of the mutable members of polynomials and names as separate accesses of threads in any order (`Caches/Model.lean`); memory is sequentially consistent, which C++ promises where there is no race | invariant over executions: who has written what is determined by the log of accesses |
| C153 | `weakly_canonical` of `FileManager.cpp` on a tree of directories, files and links (`FilePool/PathModel.lean`); `exists`, `canonical` and `absolute` of boost by their documentation | the files that are opened are given by inductive rules; induction over the elements that are followed and the number of links |
| C154 | the same functions as C01, C22, C32, C39, C55 and C91 with `Num K`, a number or NaN, as in IEEE 754: comparisons with NaN are false, arithmetic gives NaN (`NotANumber/Model.lean`) | agreement with the other models on numbers; induction over knots, data, samples and trees; witnesses of undefined behaviour |
| C155 | the k-d tree as in C01 with infinities, NaN, overflow beyond a greatest number and subnormal numbers (`KdTree/OverflowModel.lean`, `Common/Ieee.lean`, `Common/Gradual.lean`) | the pruned half is never within the radius, by the monotonicity of the rounding and cases over infinities; induction over the tree; witness where the split value overflows |
| C156 | the code of C120, C121, C123 and C124 with infinities, NaN, overflow and subnormal numbers (`Overflow/Model.lean`, `Common/Ieee.lean`); signs of zeros are not modelled | the running sums split into a finite and an infinite part; the index from `x < 2 rnd x` where `rnd x` is positive; induction over the cells; witnesses with the greatest and least doubles |
| C157 | the heap: vectors of counts (shared), objects (unique), variables; one step per statement (`Histogram/VarsModel.lean`) | invariant: no object belongs to two variables, the counts of each object exist; simulation step by step, induction over the program |
| C158 | several readers (state each) with one stream; writers that append to one stream (`Table/SharedModel.lean`, `SharedTablesProps.lean`) | refinement to one list of lines, induction over the calls; shift lemma for every function of the reader; prefix lemma: loops that end in a block do not see what follows it; violated for new readers without types |
| C159 | the whole reader (`Table/AsciiModel.lean`), `erase(end() - 1)` of an empty string as undefined | equivalence: undefined iff the header has such a description, by induction over the comments; everything after the header is shown to answer or throw (`Table/DefinedProps.lean`) |
| C160 | `readNpy`, `readNpyHeader`, `parseNpyDict`, `mmapNpy` (`Npy/Model.lean`, `Npy/MmapModel.lean`) against `Spec.Any.header`, `Spec.Any.dictionary` (`Npy/AnyProps.lean`) | positions computed modulo 2^64 from `npos` are the places of the specification; `find` of one character with `substr` is `takeWhile`; then case by case |
| C161 | the overloads for data sets (`MathUtils/DatasetModel.lean`) with the models of C30, C34, C35, C38, C40, C112, C118 | the copied vectors are the projections of the points; composition of C118_ascii, C112_dataset_partial, C34_linear and C35_nodes |
| C162 | `PhotometricBandMappingConfig` and `PhotometryCatalogConfig` as objects with their members (`Configuration/BandModel`), and the four things `ConfigManager` and a program do with them; the file system may change between calls | Induction over the sequence of calls (`BandProps`) against a relation that lists the files read; the contents of a file by C26. Violated for retries: witness evaluated |
| C163 | `queued`, `running`, `activeThreads`, `checkForException` called by another thread (`ThreadPool/WatchModel.lean`) | invariants over executions: what is known of flags already read; somebody looks after the queue as long as it is not empty |
| C164 | distance between object and map during training | algebra of the update, the specification of findBMU (C55_bmu), induction over the iterations (`SOM/DrawProps.lean`) |
| C165 | `ConfigManager::getInstance` as four steps of each thread, and the memory each step touches (`Configuration/InstanceModel.lean`) | invariants over all interleavings; for the converses an execution is constructed for every pair of threads (`Configuration/InstanceProps.lean`) |
| C166 | `AdaptativeIntegration` on `SimpsonsRule`, `CosmologicalParameters`, `hubbleDistance`, `hubbleParameter` and `comovingDistance`, every operation rounded (`MathUtils/AdaptiveRoundModel.lean`, `Physics/DistanceRoundModel.lean`) | the errors of one order are halved by the next one: an invariant of the loop (`MathUtils/AdaptiveRoundProps.lean`); error of the radicand by `Close`, then of the root, the quotient and the displaced node (derivative of the inverse Hubble parameter), and the error of the rule from C135 (`Physics/DistanceRoundProps.lean`); the example uses binary rounding of real numbers (`Common/RealBinary.lean`, which is `Binary.lean` on rational numbers) |
| C167 | `FileHandler` as in C13 (`FilePool/Model.lean`): `getReadAccessor`, `getWriteAccessor`, `m_available_fd` in the order of the addresses | invariant over all calls that the idle descriptors are ordered; the first one of a type is then the least (`FilePool/ReuseProps.lean`) |
| C168 | `convertToCellType` and its helpers (`Table/AsciiModel.lean`), `boost::lexical_cast` to integers and `boost::tokenizer` as documented | an independent relation between texts and cells, equivalent to success of the conversion (`Table/ConvertProps.lean`) |
| C169 | `transverseComovingDistance`, `luminousDistance`, `distanceModulus` and `dimensionlessComovingVolumeElement`, every operation rounded, the functions of the C library as parameters (`Physics/CurvedRoundModel.lean`) | the distance as a function of comoving distance and curvature: its derivatives are bounded because the comoving distance in radii of curvature is at most the logarithm of 1 + z; relative errors of the remaining steps (`Physics/CurvedLemmas.lean`, `Physics/CurvedRoundLemmas.lean`, `Physics/CurvedRoundProps.lean`) |
| C170 | `GridAxis::operator==`, `!=`, `infimum`, `GridContainer::infimum` and `at` (`Grid/Model.lean`) | the knot is unique in increasing axes; `at` by C18; equality by induction over the knots (`Grid/CornerProps.lean`) |
| C171 | storing and loading by pointers with the object tracking of boost archives: numbers for classes and addresses, deleted objects (`Grid/TrackModel.lean`) | induction over axes and grids: the table of the loading archive agrees with the one of the storing archive (`Grid/TrackProps.lean`) |
| C172 | `TableRowAttribute`, `TableRowAttributeFromRow` as one of the handlers of `CatalogFromTable` (`Catalog/RowModel.lean`) | induction over the handlers, with C50 and C99 (`Catalog/RowProps.lean`) |
| C173 | `PdfModeExtraction.cpp` for any arithmetic; instances are rounded arithmetic and IEEE arithmetic with infinities and NaN (`MathUtils/ModesFloatModel.lean`) | inductions over the extractions without any law of arithmetic; the error bounds of sums for the areas; `C173_exact` shows that the model without rounding is that of C40 (`MathUtils/ModesFloatProps.lean`) |
| C174 | `computeUMatrix` and `L2::distance` over the operations of an `Arith` (rounded, or with infinities and NaN): `SOM/UMatrixModel.lean` | the fold of `min_element`/`max_element` for a transitive irreflexive comparison; sums of numbers that are not negative are NaN only if a term is; `Close` for the mean; a witness with three equal distances for the violation |
| C175 | the restraint and neighbourhood functions with every operation and conversion rounded (`SOM/FactorRoundModel.lean`), with the buffer of `kohonen` | monotonicity of the rounding; the buffer by induction over the calls; the training from C124_range |
| C176 | the samplers with every operation of the marginals, the inverses and the interpolations rounded (`MathUtils/SamplerRoundModel.lean`) | induction over the axes; the discrete inverses from C122_discrete, the zeros outside from C149_outside; concrete counterexample by evaluation |

## 5. Disagreements found between code and properties

Each item is a theorem `..._violated` (or similar) with a concrete witness.

* **C02** (`NdArray.icpp` 154-203): the size of a shape is accumulated in 32 bits; a 65536x65536 array has size 0 and `at(0,0)` is
  undefined. The positive theorem assumes fewer than 2^32 elements.
* **C05** (`reshape`): after `rslice` the new strides are those of a contiguous array, so the elements are not those of the slice.
* **C06** (`concatenate`): `m_size` is not updated, so `size()`, iteration and `operator==` ignore the appended rows; concatenating to a
  slice overwrites neighbours.
* **C07** (`copy` of a slice): the whole container is copied and the offset reset to 0, so the copy differs from the slice.
* **C60** (attribute names of slices): `slice` drops the first *name* instead of keeping the names of the last axis.
* **C61** (`operator==` after `concatenate`): uses the stale size.
* **C19** (slice of a grid with an empty axis): `begin()` is moved behind `end()`, the loop does not terminate properly.
* **C20** (`GridContainer.icpp` 49): the slicing constructor fixes the axis of `other.m_axes` instead of `other.m_axes_fixed`, so after
  two fixings only the last one shows in `size()` and `getAxis()`.
* **C22** (`Sqrt<int>`, `Sqrt.h` 45-58): with an integer value type the bin width is truncated, values in the remainder are
  dropped; a width of 0 divides by zero.
* **C23** (`ComputationImpl.icpp` 54): the median tests `high_i >= 0` instead of `>= m_clip_left` and reads the count left of the
  clip.
* **C67** (`Histogram.h` 238-251): `getEdges` and `getBins` ignore the clip that `getCounts` applies.
* **C68** (`ComputationImpl.icpp` 54-58): the interpolated median divides by the larger of the two neighbouring counts and always
  uses the width of the right bin, so it does not halve the weight.
* **C15** (`ThreadPool.cpp` 54-62): a worker can be delayed between taking a task and calling it, so tasks may begin out of order.
* **C70** (`ThreadPool.cpp` 49, 64, 118, 147): `m_exception_ptr` is a plain `std::exception_ptr` read and written without lock.
* **C71** (`ThreadPool.cpp` 49-54): the exception is checked before taking a task, so up to n-1 tasks start after it was recorded,
  against the class documentation.
* **C13** (`FileHandler.icpp` 52-57): a write accessor requested for another stream type than the idle one clears `m_available_fd`
  without closing. The file stays in the manager for ever, and its callback refuses: with limit n, n such requests make every
  further open fail. Witness `C13_violated`; `C13_accounting` shows that the slot is never freed.
* **C14** (`FileHandler.icpp` 31-36, 89-94): after a successful `try_lock()` the code calls `lock()` on the same lock object,
  which throws `boost::lock_error`. So `kTryRead` and `kTryWrite` return a null pointer if the file is in use and throw if it is
  free (`C14_try_never`). The only test of `kTryWrite` is for a file in use.
* **C14** (`FileManager.cpp` 91-117): a handler that is dropped while one of its accessors is alive loses its entry; the next
  handler for the path does not know the first accessor (`C14_two_writers`), and the release of the first accessor uses the
  destroyed handler.
* **C73** (`FileManager.icpp` 44-57): `notifyIntentToOpen` and the insertion into `m_files` are separate critical sections, so the
  limit can be exceeded by one file per additional thread, and `getAvailable()` wraps around to 2^32-1.
* **C74** (`FileHandler.icpp` 38/61 and 96/117, `FileHandler.cpp` 38): `getAccessor` holds `m_handler_mutex` while it calls
  `FileManager::open`; if the manager is full it may call `FileHandler::close` of the same handler, which locks `m_handler_mutex`
  again. Witness: limit 1, one handler, two readers.
* **C75** (`FileManager.cpp` 104-113): the deleter erases the entry of the path without checking that it is its own.
* **C09** (`NpyCommon.h` 165-185): keywords are searched as substrings of the whole header, so an attribute called `shape` (or
  containing it) makes the file unreadable; `]` in a name ends the list of fields (and leaves the byte order unset); the shape `()` of a single record calls
  `back()` on an empty string; an empty array is read through `&data[0]` of an empty vector.
* **C76** (`NpyReader.icpp` 49, `NpyCommon.h` 207-230): the state of the stream is not checked after reading; a truncated file
  gives an array padded with zeros.
* **C77** (`NpyCommon.h` 183): `shape_str.back()` for a 0-dimensional array written by numpy.
* **C78** (`NpyCommon.h` 356-360): `m_n_elements` is assigned before the size is checked, so after a refused `resize` the
  container claims more elements than are mapped.
* **C57** (`SOM/src/lib/NeihbourhoodFunc.cpp` 32-33): `double x = bmu.first - cell.first` subtracts `size_t` values; for cells
  right of or above the best matching unit the difference wraps to about 2^64 and the cell is never inside the disk, whatever the
  radius. `kohonen` converts first and is right.
* **C58** (`SOM/SOM/SamplingPolicy.h` 68, 129): on an empty input `Bootstrap` builds a distribution over 0..-1 and `Jackknife`
  reads element 0 of an empty vector, also for sample size 0.
* **C79** (`SOM/SOM/_impl/UMatrix.icpp` 35-38): a 1x1 map has no neighbours; minimum and maximum dereference the end iterator of
  an empty vector, the mean is 0/0.
* **C55** (`SOM/SOM/_impl/SOM.icpp` 92-101): a map of size zero computes coordinates modulo zero; if all distances exceed the
  largest double the first cell is reported with the largest double as its distance.
* **C83** (`XYDataset/src/lib/FileSystemProvider.cpp` 52-95): a name repeated in `order.txt` (or written `sub/` besides `sub`) is
  listed twice; every data set file below it is then found twice and the constructor throws because the qualified name exists
  already.
* **C84** (`XYDataset/src/lib/AsciiParser.cpp` 93-98): the separator is only written when the text so far is not empty, so an
  empty value before others disappears.
* **C85** (`XYDataset/src/lib/AsciiParser.cpp` 137-140): `sfile.good()` is false after reading a last line without newline, so a
  file with one data line and no final newline is not a data set. A line of spaces counts as the first data line and makes the
  file no data set.
* **C86** (`XYDataset/src/lib/StringFunctions.cpp` 34-67): `checkBeginSlashes("//")` is `"///"`; `checkNoBeginSlashes("/")` throws
  `std::out_of_range`. `checkEndSlashes("")` is `"/"`: a provider with an empty root path reads from the root of the file system.
* **C25** (`Configuration/src/lib/ConfigManager.cpp` 88-110): the search for circular dependencies from a node outside a cycle
  follows the cycle for ever. Whether it is reached depends on the unspecified order of `std::type_index`.
* **C26** (`PhotometricBandMappingConfig.cpp` 139-145): an excluded name is erased from the set at its first occurrence, so a
  filter listed twice in the file and excluded is dropped from thresholds and conversions but kept once in the mapping; the lists
  are matched by position afterwards. An empty line is a syntax error (81-92). A second `initialize` appends to the lists.
* **C27** (`ProgramOptionsHelper.cpp` 41-45): any option that begins with the prefix counts, and the character after the prefix is
  dropped whatever it is: prefix `filter` and option `filters-x` give the name `-x`; an option equal to the prefix gives the empty
  name.
* **C87** (`ConfigManager.icpp` 27-37): the key is inserted before the constructor runs. If the constructor throws, the null
  pointer stays and `closeRegistration` dereferences it. Configurations that declare each other recurse without end instead of
  being reported by `closeRegistration`.
* **C88** (`ConfigManager.cpp` 154-170): the state becomes INITIALIZED before the hooks run, so after an exception in a hook (or
  when `closeRegistration` was not called) `getConfiguration` returns configurations that are not initialised. `initialize` may be
  called again and runs all hooks again.
* **C89** (`CatalogConfig.cpp` 131-149): without options the ID column is `ID`, without a check that it exists.
* **C90** (`CatalogConfig.cpp` 97-103): `std::string{array.data()}` of 80 bytes read from the file; there is no terminating null,
  so for ordinary files the read goes past the array. An error while reading (short file) leaves uninitialised bytes.
* **C32** (`Piecewise.cpp` 36-50, 94-110): the header promises an exception unless knots are strictly increasing; equal neighbours
  are accepted. A function with one knot and no pieces reads a piece that does not exist when it is called with the knot.
  `integrate` on a piecewise function ignores the given integration scheme, and throws if a piece is not integrable.
* **C33** (`multiplication.cpp` 62-121): functions with disjoint ranges: `*(++iterator)` at the end (undefined) instead of 0
  everywhere. Ranges that touch in a point: one order is undefined, the other gives a function with a single knot. When the
  overlap begins at an inner knot of a factor the product takes the piece to the right of it, the factor the one to the left, so
  for a discontinuous factor the product is wrong at that point.
* **C34** (`interpolation.h` 60-75, `linear.cpp`, `interpolation.cpp`): the header of `interpolate` promises an exception for step
  functions (equal neighbours with different values); the code accepts them, and a step at the first knot divides by zero. An
  empty list of points reads `x.front()`; two equal points with extrapolation give the function 0 instead of the constant; a
  single point without extrapolation is undefined at the point.
* **C36** (`interpolation.cpp` 125): at a repeated abscissa `simple_interpolation` returns `(x1 + y1) / 2` where `(y0 + y1) / 2`
  is meant.
* **C37** (`GridInterpolation.icpp` 62-76): for a discrete argument that is not a knot the code dereferences `std::find(...) ==
  end()`; the header promises 0. The order of the knots is checked for all axes but the last (97-106 against 156). The class
  comment says that `values.at(0, 1, 2)` belongs to the first, second and third axis; the layout is the opposite one, as the
  warning at the constructor says.
* **C38** (`InverseCumulative.icpp` 36): the constructor compares a size with itself, so vectors of different sizes are not
  refused and the loop reads out of bounds. Line 116: a root is accepted up to 1e-8 outside the segment, so on a falling density
  the wrong root can be taken and the result can lie before the segment, even before the first knot. The header speaks of the
  first value with the cumulative, but `upper_bound` gives the end of a plateau. A discrete density without weight gives NaN.
* **C39** (`Cumulative.cpp` 148-170): for every start but the first, the weight of the starting sample itself is not counted,
  although `fromPdf` puts it there; the shortest interval holding the required weight is therefore missed. An interval of a single
  sample is never considered. With an all-zero cumulative the ends come out exchanged. An empty cumulative is undefined behaviour.
* **C92** (`Cumulative.cpp` 184-185): the lower end is the *end* of its tray and the upper end the *beginning* of its tray; if
  both bounds are on the same tray of several samples, the returned interval is inverted.
* **C40** (`PdfModeExtraction.cpp` 223-229): `extractNBigestModes` inserts a mode before a smaller one without removing any, so it
  can return more than `n` modes, against the documentation; with `n = 0` it accesses the last element of an empty vector. With
  one or two samples the widths (106) or the parabola (138-145) are read out of bounds. `catchPeak` (72-93) never includes the
  first or last sample in a peak that reaches the border, unless the peak is there; that sample then comes back as a mode of its
  own. Once the density is used up, `extractNHighestModes` goes on with modes without area, whose mean is NaN.
* **C94** (`AdaptativeIntegration.icpp` 38-43, `SimpsonsRule.cpp` 57): nothing limits the order; when the estimates do not agree,
  `int N = pow(2, order)` overflows at order 31. If both first estimates are exactly 0 the quotient is NaN and 0 is returned, also
  for functions that only vanish at the samples.
* **C42** (`AsciiReaderHelper.h` 59): `StreamRewinder` keeps the position of the stream in an `int`; beyond 2^31 bytes the rewind
  fails or goes elsewhere, and `hasMoreRows()`/`rowsLeft()` lose rows. `read(0)` throws.
* **C96** (`AsciiReader.cpp` 180-196): `getComment()` called before the columns are read consumes the lines with their names and
  descriptions, and the table gets names `col1`, … and string columns.
* **C43** (`AsciiReader.cpp` 213-216): the first token of a line is read without `boost::io::quoted`, while the writer quotes
  strings; a string with a space in the first column makes the reader throw (`C43_violated`), and one with a quote comes back with
  the quotes.
* **C43** (`AsciiReader.cpp` 206-209, `AsciiReaderHelper.cpp` 50): comments are cut off before quotes are looked at, so that a
  string containing `#` is read back shortened (`C43_violated_comment`).
* **C43** (`AsciiWriterHelper.cpp` quoted): an empty vector is printed as an empty text, of which the first character is taken:
  undefined behaviour (`C43_violated_vector`).
* **C43** (`AsciiReaderHelper.cpp` 141-147): a unit that begins with a space leaves the token `(`, from which two characters are
  erased: undefined behaviour (`C43_violated_unit`).
* **C46** (`FitsWriterHelper.cpp` 258-260): no dimensions are written for arrays of one element, whose shape is lost
  (`C46_violated`); they are read as scalars (`C48_violated_array`).
* **C48** (`FitsReaderHelper.cpp` 88-104): a format with size 1 is read as a scalar, so that vectors of one element come back as
  scalars (`C48_violated`), and columns of strings of at most one character cannot be read (`C48_violated_string`).
* **C48** (`FitsReaderHelper.cpp` 106-124): vectors of booleans, for which the writer has a format, cannot be read
  (`C48_violated_bool`).
* **C47** (`FitsReader.cpp` 159-172): `skip` is not limited to the rows that are left, after which `rowsLeft()` is a difference
  converted to an unsigned number (`C47_violated`); `read` takes only -1 for all the rows, other negative numbers throw
  (`C47_negative`).
* **C49** (`CastVisitor.h` 151-158, 181-191): the characters after the number are ignored, so that `12.5` is converted to 12
  (`C49_violated`), and a number out of the range of `int64_t` becomes the nearest limit although the documentation of the class
  promises to throw (`C49_violated_range`).
* **C49** (`CastVisitor.h` 214-222): empty elements of a list are dropped, `1,,2` has two elements (`C49_violated_empty`).
* **C49** (`CastVisitor.h` 102-117): `int64_t` and `int32_t` are accepted for `float`, which cannot represent all of them
  (`C49_violated_float`), while `double` is rejected for it.
* **C21** (`GridContainerToTable.icpp` 119-138 with `GridContainer.icpp` fixAxis): a slice of a slice cannot be converted, because
  its axes contain all knots of the axis that was fixed first and `at` rejects their indices (`C21_violated`).
* **C21** (`GridContainerToTable.icpp` 124): the first cell is dereferenced to find the columns, also if the grid has an empty
  axis (`C21_violated_empty`).
* **C51** (`PhotometryAttributeFromRow.cpp` 137-162, 173-198): an error that is NaN passes all comparisons and is stored as an
  ordinary value (`C51_violated`).
* **C51** (`PhotometryAttributeFromRow.cpp` 109-110, 202-203): thresholds and the flags for magnitudes carry filter names but are
  used by position (`C51_violated_order`, `C51_violated_kind`); with fewer thresholds than filters the iterators run past the end
  (`C51_violated_short`).
* **C52** (`FluxErrorPair.cpp` 33-36): two missing values are equal whatever their numbers are, and a missing value equals an
  ordinary one with the same numbers, so that the equality is not transitive (`C52_violated`); it is not reflexive for NaN
  (`C52_violated_nan`).
* **C54** (`CosmologicalDistances.cpp` 78-84): at redshift 0 the luminosity distance is 10 pc so that the modulus is 0, while it
  tends to 0 for small redshifts (`C54_violated`, `C54_violated_jump`). The header documents the value.
* **C102** (`PhotometricBandMappingConfig.cpp` 126-145, `PhotometryAttributeFromRow.cpp` 109-204): a mapping file with the same
  filter on two lines, of which the filter is excluded, makes `readAsCatalog` advance the iterators of the thresholds and of the
  kinds past the end (undefined behaviour), see `C102_violated`; the cause is the one of C26.
* **C103** (`CatalogConfig.h` 229-242, `CatalogConfig.cpp` 235-240): `getFilename` is documented to throw if the instance is not
  final; it only throws before the instance is initialised. `getIdColumn` has no check at all.
* **C105** (`NdSampler.icpp` 139, 193-201, `InverseCumulative.icpp` 116-119): `InverseCumulative` can return a value up to 1e-8
  below the first knot. `NdSampler` then evaluates the interpolated density, which is 0 outside of the knots, so every further
  element of that row is the first knot whatever the random number is (`C105_outside_violated`).
* **C105** (`NdSampler.icpp` 54-59): for one axis the inverse is built from the elements of the array before the rank is checked;
  for an array of two axes it reads behind the knots (`C105_rank_violated`) instead of the exception.
* **C106** (`FitsWriter.cpp` 82-95): the width of a string column is that of the longest string in the first table; longer strings
  in later tables are cut without an error (`C106_cut_violated`).
* **C106** (`FitsWriter.cpp` 92-93, 113): if the extension with the name of the table is an image, the null pointer of
  `dynamic_cast` is dereferenced (`C106_image_violated`).
* **C106** (`TableWriter.cpp` 33-35): the columns are kept before `init`; after a first table that was refused the writer refuses
  every further one (`C106_retry_violated`).
* **C106** (`FitsWriterHelper.cpp` 186, 218-222): a column of empty vectors passes the checks of the formats and then takes
  `front()` of an empty vector (`C106_empty_vectors_violated`).
* **C106** (`FitsWriterHelper.cpp` 128-130, 289-307): columns of `vector<bool>` get a format but cannot be written; the exception
  comes after the extension was made, which stays in the file without rows (`C106_bool_vectors_violated`).
* **C107** (`FitsSerialize.icpp` 119): the table of an axis is found by name and appended to; two axes of one name share one table
  and the grid cannot be imported (`C107_names_violated`).
* **C107** (`FitsSerialize.icpp` 119): the axis `a_b` of the grid `g` and the axis `a` of the grid `b_g` have the same table name;
  the export of the second grid adds its knots to the axis of the first, whose import then reads beyond the end of the pixels
  (`C107_later_violated`).
* **C107** (`FitsSerialize.icpp` 119 with `FitsWriter.cpp` 92-93): an image that has the name of the table of an axis makes the
  export dereference a null pointer (`C107_image_violated`).
* **C107** (`FitsSerialize.icpp` 131-149 with C20): the slice of a slice is exported with the number of cells of the last slice;
  it comes back with cells that the slice does not have (`C107_slices_violated`).
* **C107** (`FitsSerialize.icpp` 117, 151): the export of a grid with an axis without knots throws from the constructor of `Table`
  after the image was written (`C107_empty_axis_violated`).
* **C107** (`FitsSerialize.icpp` 86-92): string knots that differ only in blanks at the end come back equal
  (`C107_blank_violated`).
* **C108** (`serialization/GridContainer.h` 42-93 with C20): the slice of a slice stores fewer cells than the loader expects; the
  import throws or takes what follows in the stream as cells (`C108_slices_violated`).
* **C109** (`FitsParser.cpp` 115-125): `isDatasetFile` lets `std::bad_cast` escape for a file whose first extension is an image,
  because only `CCfits::FitsException` is caught (`C109_image_violated`).
* **C110** (`NdArray.icpp` 59-63): `it++` returns the advanced iterator and does not advance `it` (`C110_post_violated`); `while
  (it != end) use(*it++)` never ends (`C110_post_loop_violated`).
* **C110** (`NdArray.icpp` 65-69, `NdArray.h` 96-99): iterators of an array and of its slice at the same element are not equal,
  because their numbers of elements are compared too (`C110_same_violated`).
* **C111** (`GridIterator.icpp` 118-159, `GridContainer.h` 449-452): fixing an axis during an iteration keeps the coordinates of
  the axes before, so that cells are skipped (`C111_skip_violated`); going back on an axis carries to the next one, which leaves
  the index at which that is fixed (`C111_off_violated`) or goes beyond the end without being set to the end as in `operator++`
  (`C111_beyond_violated`).
* **C112** (`AsciiParser.cpp` 108-162): `getDataset` uses the reader of tables, which takes a last comment of two words for the
  names of the columns and throws if they are equal, although the names are not used (`C112_header_violated`, e.g. `# -- --`);
  `isDatasetFile` looks only at the first data line (`C112_line_violated`) and rejects files that can be read: with a comment
  behind the first point, a blank line before it, or without a newline behind it (`C112_converse_violated`).
* **C113** (`NpyMmap.icpp` 32-58): in the read-only mode, which the documentation mentions, `mapped_file::data/begin/end` are null
  and the header is read from an empty stream (`C113_readonly_violated`); neither the maximum size nor the size of the file is
  compared with the size of the data, so that elements may lie outside (`C113_max_size_violated`, `C113_truncated_violated`).
* **C113** (`NpyCommon.h` 344-363): in the private mode `resize`, and so `concatenate`, still resizes the file on disk, whose
  header remains the old one (`C113_private_resize_violated`), although the changes "will not persist".
* **C113** (`NdArray.h` 497-498, 540-542): `copy` is expected to be deep, but the copy of a mapped array is the same memory: an
  assignment to the copy changes the original and the file (`C113_copy_shared_violated`).
* **C114** (`FileManager.cpp` 75-88): `closeAll`, also in the destructor of the manager, calls back handlers that have been
  destroyed if a descriptor was dropped for one of another type (`FileHandler.icpp` 52-57) or if the handler was destroyed before
  its accessor (`C114_dangling_violated`, `C114_accessor_violated`).
* **C115** (`FileManager.cpp` 119-123): `hasHandler` looks only for an entry in the table: it is true while the deleter of the
  last handler is pending, and false for a live handler whose entry has been erased by the deleter of an earlier one
  (`C115_violated`).
* **C116** (`Utils.cpp` 32-39): ids are times of `system_clock`, and only the last one is remembered, without a lock: they repeat
  when the clock is set back or when two threads call at once (`C116_clock_violated`, `C116_threads_violated`).
* **C118** (`FileSystemProvider.cpp` 132-158): a single file whose name has a slash, or a second file with the same name in a
  directory, makes the whole directory inaccessible (`C118_slash_violated`, `C118_opens`); files that cannot be read are listed
  (`C118_violated`).
* **C119** (`SOM.icpp` 30-31, `InitFunc.cpp` 39-43): maps made one after the other from one random function have the same weights,
  because the function and its engine are copied; `uniformRandom` never seeds its engine, so all its functions give the same
  sequence (`C119_violated`, `C119_same`).
* **C120** (`Sqrt.h` 45-58, `Scott.h` 56-89): a value one ulp below the maximum can get the index `nbins` because the quotient is
  rounded up; it is dropped silently (0, 0, 0, 1-2^-53, 1 in three bins). `Scott` widens constant data by one half at each side,
  which has no effect from 2^53 on: the histogram has no bin and everything is dropped. The default count type `float`
  (`Histogram.h`) stops counting at 2^24 entries per bin.
* **C121** (`Cumulative.cpp` 104-115): `normalize` changes what `findValue` finds: with the values 7 and 25 the bound 25 * 0.28 is
  rounded to more than 7, while 7 / 25 is 0.28.
* **C122** (`InverseCumulative.icpp` 92-120, `Solvers.cpp` 25-30): the quadratic equation is set up in absolute coordinates, so
  that its terms cancel if the knots are close together relative to their size: for the density from 1 to 2 between 100000000 and
  100000001 a quarter of the area is found at 99999999, and for knots near 1e12 the result can be NaN.
* **C123** (`linear.cpp` 37-38, `interpolation.cpp` 128-130): lines are stored as offset at zero and slope, so that the data are
  not reproduced exactly in doubles: from the points (1, 4) and (4, 3) the value at 1 is 3.9999999999999996; from (1, 1) and (6,
  0) the value at 6 is negative; from (1, 0), (6, 1) and (7, 1) the function falls from 6 to 7, and `simple_interpolation` gives a
  different value at 6.
* **C124** (`SOMTrainer.h` 78): the weight is computed as `w + f * (s - w)`, which passes the object `s` for some doubles when the
  factors are 1 (the value of the neighbourhood function at the best matching unit and of the learning restraint at the start can
  both be 1): from 1.5 and the object 4503599627370499 the weight becomes 4503599627370500.
* **C125** (`ThreadPool.cpp` 108-115, 156): `block()` polls flags that the workers set and reset. A fair schedule in which the
  client always looks while the worker looks at the queue keeps `block()` from returning for ever although there is nothing to do;
  only the different lengths of the sleeps make this unlikely.
* **C126** (`ThreadPool.cpp` 144-159): `block()` may return before a task that was submitted by a task is finished (the worker
  that takes it was seen asleep before). (`ThreadPool.cpp` 173-175): a pool without workers calls the task while it holds
  `m_queue_mutex`, so that a task that calls `submit`, `queued` or `running` deadlocks (undefined behaviour).
* **C128** (`LRUFileManager.cpp` 43-53): `notifyIntentToOpen` releases `m_mutex` while it iterates over `m_sorted_ids`. If another
  thread uses or closes the file that is being asked for, and the callback refuses, the loop advances an iterator to an erased
  element (undefined behaviour; two threads suffice).
* **C128** (`FileHandler.icpp` 38, 96, `FileHandler.cpp` 38): a handler keeps its mutex while the manager asks other handlers to
  close files; two handlers that ask each other wait for ever.
* **C129** (`FileManager.cpp` 78-87): `closeAll` collects pointers to the metadata blocks under the mutex and uses them after its
  release; a block that another thread closes in between (a change of mode, an eviction, another `closeAll`) has been deleted.
* **C131** (`Solvers.cpp` 27-30): the rounded discriminant of an equation with a double solution may be negative (`361 x² + 38 x +
  1 = 0`), the results are then NaN; `sr - b/(2a)` cancels, so that the smaller solution of `x² + 2^56 x + 2^56 = 1` comes out as
  0 instead of -1.
* **C135** (`AdaptativeIntegration.icpp` 33-46): the relative precision is not reached in general. The first two orders may
  agree although both are wrong: for `sin² (16 π x)` on `[0, 1]` all samples are 0 and so is the result (`C135_violated`).
* **C137** (`AsciiWriterHelper.h` 84-89): floating point cells are written with the default precision of a stream, six digits. A
  `double`   1234567 comes back as 1234570 (`C137_violated`); different numbers become equal (`C137_violated_equal`).
* C140: a program that asks for the size or the axes of a slice of a slice (`GridContainer.icpp` 45-57: `m_axes_fixed` is made
  from the original axes) or iterates a slice of a grid with an empty axis (`GridIterator.icpp` 148-159) does not see what it
  should (`C140_violated`, `C140_iteration_violated`; the causes are those of C20 and C19).
* C141: `assert(low_sum + high_sum == total_count)` (`ComputationImpl.icpp` 52) fails in builds with assertions when `float`
  weights add up to more than 2^24 (`C141_assert_violated`: counts 1, 1, 1, 16777216); the variance is computed as the difference
  of the second moment and the squared mean (lines 31-35), which is 0 for two bins of width 1 around 2^30 (`C141_sigma_violated`).
* **C145** (`FitsSerialize.icpp` 223-229): the import does not compare the image with the axes; an image with fewer pixels than
  the product of the rows of the tables is read beyond its end (`C145_safe_violated`), one of another shape is accepted
  (`C145_shape_violated`).
* **C146** (`spline.cpp` 71-84): the polynomials are expanded in powers of `x` instead of powers of the distance to the knot. For
  abscissae far from zero the terms are large and cancel; with a million, a million and one, two and three as abscissae and 0, 1,
  0, 0 as ordinates the spline is 256 at the third point (`C146_violated`); with abscissae from 10000 on an eighth apart, as in a
  filter given in Ångström, and ordinates 1 and 2 it is 1/4 at a point where it should be 1.
* **C147** (`NpyCommon.h`, type description): names of attributes are put between quotes without escaping, so that a name with a
  quote, such as `it's`, gives a file that numpy cannot read; and nothing requires that names are distinct, which numpy does for
  fields (`C147_violated`).
* **C148** (`NdArray.icpp` 491-510): arrays without elements are written as nothing, also without their shape, so that shapes
  `<0>` and `<0,3>` look the same; after `concatenate` the text gives the new shape with the old elements only (`C148_violated`).
* **C149** (`GridInterpolation.icpp` with `interpolation.cpp` 127-130): in doubles the interpolation on a grid does not return the
  element at a node, and can return a negative number for nonnegative elements, since lines are evaluated from their ordinate at
  zero (`C149_violated`).
* **C150** (`AsciiReader.cpp` 76, 105, `FitsReader.cpp` 64): names and types that are refused with an exception are kept and used
  later (`C150_violated`, `C150_fits_violated`); fixed names do not help against a header with a name that occurs twice
  (`AsciiReader.cpp` 132, `C150_header_violated`); the documentation forbids whitespace in names, the code only line breaks
  (`C150_blank_violated`).
* **C151** (`NpyCommon.h` 53-81, 123): arrays of `int8`/`uint8` saved by numpy have the types `|i1`, `|u1` and cannot be read, the
  library expects `b` and `B` (`C151_bytes_refused`); in records, fields that are arrays (`('x', '<f8', (2,))`) or whose name
  contains a quote are passed over without an exception, so that the numbers of the other fields are wrong
  (`C151_silent_violated`, `C151_quote_violated`); if all fields are arrays, `big_endian` is read without having been set
  (122-144, 238; `C151_unset_violated`).
* **C152** (`Polynomial.cpp` 54-61, 65-73, `QualifiedName.cpp` 86-90): `const` functions store their values in mutable members
  without synchronisation, so that two threads that compare the same new names, or integrate the same new polynomial, have a data
  race (`C152_race_iff`, `C152_violated`); a name whose hash is zero is computed and stored again at each call (`C152_zero_hash`).
* **C153** (`FileManager.cpp` 33-52): a symbolic link to a file that does not exist yet is taken for the file itself, so that the
  link and its target have two handlers, which do not exclude each other when both write (`C153_violated`); `..` after a directory
  that does not exist stays in the key (`C153_later_violated`). Only with boost before 1.60.
* **C154** (`Piecewise.cpp` 71-85): at NaN the piece with index -1 is called, so that every interpolation is undefined at NaN;
  `integrate` (96-127) from NaN is zero and to NaN is the integral to the last knot. `EdgeVector.h` 60-67 counts NaN in the last
  bin, `Sqrt.h` 54-58 and `Scott.h` 85-89 convert NaN to an integer. `Cumulative.cpp` 104-174: NaN is accepted as ratio and rate;
  a NaN among the densities gives the first sample for every ratio, an interval from the last sample to the second one, or a read
  before the vector. `SOM.icpp` 89-102 and `SOMTrainer.h` 57-81: an object with NaN goes to the first cell and makes its
  neighbourhood NaN for good (`C154_train_lost`). `KdTree.icpp` 57-59 sorts with a comparison that is no strict weak order
  (`C154_kdtree_order`).
* **C155** (`KdTree.icpp` 61-69): the split value is computed as half of a sum that overflows for two coordinates beyond `2^1023`;
  it is then infinite and one half of the tree is never searched, so that a point is not found at its own place (`C155_lost`). The
  square of the radius (line 42) underflows to zero for radii below `2^-538`: nothing is found (`C155_radius_underflow`).
* **C156**: with finite doubles, (a) sums of densities that overflow (`Cumulative.cpp` 78-174) make `findMinInterval` return the
  last sample as lower and an earlier one as upper end, and normalising gives zeros and NaN (`C156_cumulative_violated`); (b) the
  step of `Sqrt` (`Sqrt.h` 45-58) is rounded to zero or infinite, and the conversion of 0/0 or inf/inf to an index is undefined
  (`C156_bins_violated`, `C156_range_violated`); (c) a slope that overflows (`linear.cpp` 37-38) makes the interpolation NaN even
  at the points (`C156_line_violated`); (d) squares that underflow (`Distance.h` 56-62) make cells equal that are not
  (`C156_map_violated`).
* C158: a second `AsciiReader` for the stream of another one does not continue where the first stopped: the column types stand in
  the header that is behind it, so it reads strings (`# Column: a int`, `1`, `2`: the second row becomes the string "2"). With the
  names and types given it continues.
* C159: the header comment `# Column: a (` makes `AsciiReader::getInfo`, `read` and `skip` undefined: the unit is taken to be
  `(…)`, its first and then its last character are erased, the second time from an empty string (`AsciiReaderHelper.cpp` 141-147).
* **C160** (`NpyCommon.h` 122-144, 152-248): no read is checked, so that a file that ends before its dictionary makes the parser
  use variables that were never set; a dictionary that ends soon after the word `descr`, an empty type, an empty shape and an
  array without elements read outside of strings or vectors; a list of fields in which no field is recognised leaves the byte
  order unset.
* C161: `interpolate` of a data set with one point and without extrapolation returns a `Piecewise` with one knot and no function;
  calling it at this point reads `m_functions[0]` of an empty vector.
* **C83** (`XYDataset/src/lib/FileSystemProvider.cpp` 69-73, 97-109): the names of `order.txt` only have to exist. A line `.` (or
  `..`, or any path that leads back) makes `getRecursiveDirectoryContents` call itself without end (`C83_dot_violated`).
* **C162** (`Configuration/src/lib/PhotometricBandMappingConfig.cpp` 127-145): `initialize` appends to its members and does not
  clear them, and it does so before it finds a wrong excluded filter. When the exception is caught and the manager initialised
  again, or when it is initialised twice, filters are in the lists more than once, also excluded ones (`C162_retry_violated`).
  `PhotometryCatalogConfig.cpp` 73-76: `m_missing_photometry_enabled` is never set back (`C162_flag_violated`).
* **C163** (`AlexandriaKernel/src/lib/ThreadPool.cpp` 128-142): `running()` holds the lock of the queue while it reads the flags,
  so `queued()` and then `running()` both giving 0 does mean that the pool is done, also when tasks submit tasks, where `block()`
  may return too early (C126). The calls in the other order mean nothing (`C163_other_order_violated`).
* **C165** (`Configuration/src/lib/ConfigManager.cpp` 34-41): `getInstance` uses a static map without a lock. A call with a new id
  races with every call of another thread, and when two threads ask for the same new id, both find a null pointer; the second
  `reset` destroys the manager that the first thread has a reference to (`C165_destroyed_iff`).
* **C131** (`Solvers.cpp` 27-30): with doubles whose solutions are doubles, `x² + 2^600 x = 0` gives infinities
  (`C131_overflow_violated`); `2^1023 x² + 2^1023 x = 0` gives 0 twice, instead of -1 and 0, because `2 * a` overflows and `b / (2
  * a)` is 0 (`C131_silent_violated`); `x² + 2^-540 x = 0` gives `-2^-541` twice because the square underflows
  (`C131_underflow_violated`).
* **C170** (`GridContainer.icpp` 158-209, 139-150): `infimum` of a slice gives positions on the original axes, `at` of a slice
  wants 0 at the fixed ones. With the second axis fixed at 5, `at` of `infimum(2, 5)` throws (`C170_slices_violated`). Outside the
  model: for a grid with one axis `InfimumHelper<0>::getIndex` (186-190) makes a tuple of an iterator, which is no tuple of
  `size_t`, so that `infimum` should not compile.
* **C171** (`serialization/GridContainer.h` 108-113, `serialization/tuple.h` 53-66, 103-115): `save_construct_data` stores the
  axes by pointers into a local tuple. When a second grid of the type is stored in the same archive and its tuple is at the same
  address, boost takes its axes for those of the first grid and stores references; loading reads axes that were deleted
  (`C171_reuse_violated`). `gridExport` stores one grid per archive and is not affected (`C171_single_partial`).
* **C174** (`UMatrix.icpp` 37-39): the mean of equal distances can be greater (or less) than all of them, by rounding: with three
  distances 9007199254740794 it is 9007199254740795. A MEAN u-matrix is not everywhere between the MIN and MAX u-matrices. And a
  NaN weight shows in a MIN or MAX u-matrix only at the cells of which it is the first neighbour (or itself).
* **C176** (`NdSampler.icpp` 192-203 with `InverseCumulative.icpp` 97-120): for the knots 0, 1 of the first axis and 100000000,
  100000001 of the second and a density that rises from 1 to 2 along the second axis only, the uniform number 1/4 is drawn as
  99999999 in `double`, outside of the knots. The interpolated density is 0 there, so that the element of the first axis is 0 for
  every random number, although the density does not depend on it.
* **C11** (`LRUFileManager.cpp` 26-33): the limit of the process is cut to 32 bits without a check; for a limit of 3 modulo 2^32
  (with `NDEBUG` also 3 itself) no file can be opened (`C11_system_none_iff`); without a limit (`RLIM_INFINITY`) it is 2^32 - 4.

## 6. Which code is modelled, and which is not

The table counts, per source file below `/repo` (tests excluded), the lines of code (without comments, blank lines, preprocessor lines,
`namespace`/`using`/`template` lines and closing braces) and those inside a range that a comment of a model definition cites. Uncited
lines in files with cited ones are mostly declarations of classes and of overloads that forward to a cited function, logging, and
default destructors.

Modelled as parameters or by their documented behaviour, not by their code:

* the C++ standard library and boost (containers, sorting, streams, `lexical_cast`, regular expressions with a fixed pattern, the
  archives of `boost::serialization`, `boost::program_options` after parsing, `mapped_file`);
* CCfits/cfitsio: a FITS file is a list of HDUs with the observable behaviour described in `Table/FitsFileModel.lean`;
* the file system: the entries, kinds and texts of paths (`XYDataset/ProviderModel.lean`), handles of files (`FilePool/Model.lean`);
* the scheduler: any interleaving of the atomic steps of the threads (`ThreadPool/Model.lean`, `FilePool/Conc.lean`); weak memory
  orders are not modelled, data races are stated separately (C70);
* floating point arithmetic: exact arithmetic over an ordered field (ℚ, ℝ or generic) unless a definition says otherwise; conversion
  between numbers and text is a parameter with the law that is needed (usually that parsing inverts printing);
* clocks and random number generators: any list of readings or draws;
* `Elements::Logging` and the texts of exceptions (only the kind of an exception is modelled).

Not modelled at all:

* type-level code: `index_sequence.h`, `Tuples.h`, `TemplateLoopCounter.h`, traits and `static_assert`s (a program that does not compile
  is outside of the model); headers that only declare what a modelled file defines;
* `AlexandriaVersion.cpp` (a program that prints the version), memory management (`unique_ptr`, `shared_ptr`, moves; moved-from objects
  only where a property speaks of them);
* the exhaustion of memory and of the stack, except where a definition has fuel and says so.

Files without any cited line:

* `AlexandriaKernel/AlexandriaKernel/InstOrRefHolder.h` (5)
* `AlexandriaKernel/AlexandriaKernel/ThreadPool.h` (17)
* `AlexandriaKernel/AlexandriaKernel/Tuples.h` (10)
* `AlexandriaKernel/AlexandriaKernel/index_sequence.h` (6)
* `AlexandriaKernel/AlexandriaKernel/memory_tools.h` (2)
* `AlexandriaKernel/AlexandriaKernel/serialization/array.h` (3)
* `AlexandriaKernel/src/program/AlexandriaVersion.cpp` (8)
* `Configuration/Configuration/ProgramOptionsHelper.h` (5)
* `Configuration/Configuration/SpecZCatalogConfig.h` (6)
* `Configuration/Configuration/Utils.h` (1)
* `FilePool/FilePool/FileAccessor.h` (22)
* `FilePool/FilePool/FileManager.h` (26)
* `FilePool/FilePool/LRUFileManager.h` (13)
* `GridContainer/GridContainer/GridCellManagerTraits.h` (16)
* `GridContainer/GridContainer/GridIndexHelper.h` (15)
* `GridContainer/GridContainer/_impl/TemplateLoopCounter.h` (1)
* `KdTree/KdTree/KdTree.h` (11)
* `MathUtils/MathUtils/PDF/Cumulative.h` (17)
* `MathUtils/MathUtils/PDF/NdSampler.h` (4)
* `MathUtils/MathUtils/function/Differentiable.h` (5)
* `MathUtils/MathUtils/function/Function.h` (6)
* `MathUtils/MathUtils/function/FunctionAdapter.h` (6)
* `MathUtils/MathUtils/function/Integrable.h` (3)
* `MathUtils/MathUtils/function/Piecewise.h` (11)
* `MathUtils/MathUtils/function/function_tools.h` (6)
* `MathUtils/MathUtils/function/multiplication.h` (3)
* `MathUtils/MathUtils/helpers/InverseCumulative.h` (3)
* `MathUtils/MathUtils/helpers/Solvers.h` (1)
* `MathUtils/MathUtils/interpolation/GridInterpolation.h` (4)
* `MathUtils/MathUtils/interpolation/interpolation.h` (10)
* `MathUtils/MathUtils/numericalDifferentiation/FiniteDifference.h` (2)
* `MathUtils/MathUtils/numericalIntegration/AdaptativeIntegration.h` (6)
* `MathUtils/src/lib/function/FunctionAdapter.cpp` (5)
* `MathUtils/src/lib/interpolation/implementations.h` (2)
* `NdArray/NdArray/Operations.h` (6)
* `NdArray/NdArray/io/Npy.h` (8)
* `NdArray/NdArray/io/NpyMmap.h` (7)
* `SOM/SOM/ImplTools.h` (1)
* `SOM/SOM/InitFunc.h` (3)
* `SOM/SOM/LearningRestraintFunc.h` (2)
* `SOM/SOM/SOMProjector.h` (6)
* `SOM/SOM/UMatrix.h` (2)
* `SourceCatalog/SourceCatalog/Attribute.h` (2)
* `SourceCatalog/SourceCatalog/AttributeFromRow.h` (3)
* `SourceCatalog/SourceCatalog/CatalogFromTable.h` (7)
* `SourceCatalog/SourceCatalog/PhotometryParsingException.h` (11)
* `SourceCatalog/SourceCatalog/SourceAttributes/Coordinates.h` (9)
* `SourceCatalog/SourceCatalog/SourceAttributes/SpectroscopicRedshift.h` (9)
* `SourceCatalog/SourceCatalog/SourceAttributes/TableRowAttributeFromRow.h` (3)
* `Table/Table/TableWriter.h` (12)
* `Table/Table/_impl/AsciiReader.icpp` (2)
* `Table/Table/_impl/AsciiWriter.icpp` (2)
* `Table/src/lib/FitsReaderHelper.h` (6)
* `Table/src/lib/FitsWriterHelper.h` (4)
* `Table/src/lib/ReaderHelper.h` (2)
* `XYDataset/XYDataset/CachedProvider.h` (9)
* `XYDataset/XYDataset/FileParser.h` (6)
* `XYDataset/XYDataset/FileSystemProvider.h` (10)
* `XYDataset/XYDataset/FitsParser.h` (7)
* `XYDataset/XYDataset/XYDataset.h` (15)
* `XYDataset/XYDataset/XYDatasetProvider.h` (5)
* `XYDataset/src/lib/StringFunctions.h` (5)

Files with cited lines:

| Source file | code lines | cited |
|---|---|---|
| `AlexandriaKernel/AlexandriaKernel/StringUtils.h` | 9 | 9 |
| `AlexandriaKernel/AlexandriaKernel/_impl/InstOrRefHolder.icpp` | 18 | 18 |
| `AlexandriaKernel/src/lib/ThreadPool.cpp` | 87 | 54 |
| `Configuration/Configuration/CatalogConfig.h` | 21 | 6 |
| `Configuration/Configuration/ConfigManager.h` | 16 | 6 |
| `Configuration/Configuration/Configuration.h` | 21 | 5 |
| `Configuration/Configuration/PdfCatalogConfig.h` | 13 | 9 |
| `Configuration/Configuration/PhotometricBandMappingConfig.h` | 13 | 4 |
| `Configuration/Configuration/PhotometryCatalogConfig.h` | 9 | 2 |
| `Configuration/Configuration/_impl/ConfigManager.icpp` | 23 | 23 |
| `Configuration/Configuration/_impl/Configuration.icpp` | 10 | 4 |
| `Configuration/src/lib/CatalogConfig.cpp` | 120 | 111 |
| `Configuration/src/lib/ConfigManager.cpp` | 88 | 86 |
| `Configuration/src/lib/Configuration.cpp` | 12 | 3 |
| `Configuration/src/lib/PhotometricBandMappingConfig.cpp` | 87 | 78 |
| `Configuration/src/lib/PhotometryCatalogConfig.cpp` | 47 | 46 |
| `Configuration/src/lib/ProgramOptionsHelper.cpp` | 14 | 14 |
| `Configuration/src/lib/SpecZCatalogConfig.cpp` | 60 | 60 |
| `Configuration/src/lib/Utils.cpp` | 7 | 7 |
| `FilePool/FilePool/FileHandler.h` | 27 | 3 |
| `FilePool/FilePool/_impl/FileAccessor.icpp` | 14 | 4 |
| `FilePool/FilePool/_impl/FileHandler.icpp` | 70 | 70 |
| `FilePool/FilePool/_impl/FileManager.icpp` | 26 | 18 |
| `FilePool/src/lib/FileHandler.cpp` | 15 | 11 |
| `FilePool/src/lib/FileManager.cpp` | 53 | 45 |
| `FilePool/src/lib/LRUFileManager.cpp` | 48 | 48 |
| `GridContainer/GridContainer/GridAxis.h` | 15 | 15 |
| `GridContainer/GridContainer/GridContainer.h` | 65 | 13 |
| `GridContainer/GridContainer/GridContainerToTable.h` | 18 | 17 |
| `GridContainer/GridContainer/_impl/FitsSerialize.icpp` | 93 | 76 |
| `GridContainer/GridContainer/_impl/GridAxis.icpp` | 23 | 14 |
| `GridContainer/GridContainer/_impl/GridCellManagerTraits.icpp` | 16 | 2 |
| `GridContainer/GridContainer/_impl/GridConstructionHelper.h` | 37 | 30 |
| `GridContainer/GridContainer/_impl/GridContainer.icpp` | 106 | 79 |
| `GridContainer/GridContainer/_impl/GridContainerToTable.icpp` | 37 | 35 |
| `GridContainer/GridContainer/_impl/GridIndexHelper.icpp` | 44 | 32 |
| `GridContainer/GridContainer/_impl/GridIterator.icpp` | 68 | 61 |
| `GridContainer/GridContainer/serialization/GridAxis.h` | 33 | 30 |
| `GridContainer/GridContainer/serialization/GridContainer.h` | 38 | 32 |
| `GridContainer/GridContainer/serialization/tuple.h` | 41 | 35 |
| `GridContainer/GridContainer/serialize.h` | 17 | 14 |
| `Histogram/Histogram/Binning/EdgeVector.h` | 18 | 18 |
| `Histogram/Histogram/Binning/Scott.h` | 27 | 26 |
| `Histogram/Histogram/Binning/Sqrt.h` | 16 | 15 |
| `Histogram/Histogram/Histogram.h` | 83 | 63 |
| `Histogram/Histogram/_impl/ComputationImpl.icpp` | 58 | 50 |
| `KdTree/KdTree/_impl/KdTree.icpp` | 57 | 52 |
| `MathUtils/MathUtils/PDF/NdSamplerFromGrid.h` | 32 | 26 |
| `MathUtils/MathUtils/PDF/PdfModeExtraction.h` | 21 | 15 |
| `MathUtils/MathUtils/PDF/_impl/NdSampler.icpp` | 68 | 60 |
| `MathUtils/MathUtils/function/Polynomial.h` | 11 | 2 |
| `MathUtils/MathUtils/helpers/_impl/InverseCumulative.icpp` | 60 | 60 |
| `MathUtils/MathUtils/interpolation/_impl/GridInterpolation.icpp` | 75 | 30 |
| `MathUtils/MathUtils/interpolation/_impl/interpolation.icpp` | 17 | 10 |
| `MathUtils/MathUtils/numericalIntegration/SimpsonsRule.h` | 4 | 1 |
| `MathUtils/MathUtils/numericalIntegration/_impl/AdaptativeIntegration.icpp` | 13 | 11 |
| `MathUtils/src/lib/PDF/Cumulative.cpp` | 106 | 95 |
| `MathUtils/src/lib/PDF/PdfModeExtraction.cpp` | 124 | 124 |
| `MathUtils/src/lib/function/Differentiable.cpp` | 3 | 3 |
| `MathUtils/src/lib/function/Piecewise.cpp` | 64 | 54 |
| `MathUtils/src/lib/function/Polynomial.cpp` | 27 | 22 |
| `MathUtils/src/lib/function/function_tools.cpp` | 31 | 25 |
| `MathUtils/src/lib/function/multiplication.cpp` | 59 | 59 |
| `MathUtils/src/lib/helpers/Solvers.cpp` | 8 | 8 |
| `MathUtils/src/lib/interpolation/interpolation.cpp` | 64 | 63 |
| `MathUtils/src/lib/interpolation/linear.cpp` | 12 | 12 |
| `MathUtils/src/lib/interpolation/spline.cpp` | 40 | 40 |
| `MathUtils/src/lib/numericalDifferentiation/FiniteDifference.cpp` | 19 | 19 |
| `MathUtils/src/lib/numericalIntegration/SimpsonsRule.cpp` | 25 | 25 |
| `NdArray/NdArray/NdArray.h` | 114 | 23 |
| `NdArray/NdArray/_impl/NdArray.icpp` | 250 | 225 |
| `NdArray/NdArray/_impl/Operations.icpp` | 64 | 64 |
| `NdArray/NdArray/io/_impl/NpyCommon.h` | 155 | 153 |
| `NdArray/NdArray/io/_impl/NpyMmap.icpp` | 45 | 44 |
| `NdArray/NdArray/io/_impl/NpyReader.icpp` | 13 | 13 |
| `NdArray/NdArray/io/_impl/NpyWriter.icpp` | 4 | 4 |
| `NdArray/src/Operations.cpp` | 11 | 11 |
| `PhysicsUtils/PhysicsUtils/CosmologicalDistances.h` | 9 | 1 |
| `PhysicsUtils/PhysicsUtils/CosmologicalParameters.h` | 11 | 5 |
| `PhysicsUtils/src/lib/CosmologicalDistances.cpp` | 33 | 33 |
| `PhysicsUtils/src/lib/CosmologicalParameters.cpp` | 10 | 2 |
| `SOM/SOM/Distance.h` | 21 | 13 |
| `SOM/SOM/NeighborhoodFunc.h` | 3 | 1 |
| `SOM/SOM/SOM.h` | 24 | 15 |
| `SOM/SOM/SOMTrainer.h` | 25 | 20 |
| `SOM/SOM/SamplingPolicy.h` | 57 | 50 |
| `SOM/SOM/_impl/SOM.icpp` | 54 | 29 |
| `SOM/SOM/_impl/SOMProjector.icpp` | 26 | 14 |
| `SOM/SOM/_impl/UMatrix.icpp` | 22 | 16 |
| `SOM/SOM/serialization/SOM.h` | 25 | 23 |
| `SOM/SOM/serialize.h` | 53 | 47 |
| `SOM/src/lib/ImplTools.cpp` | 5 | 5 |
| `SOM/src/lib/InitFunc.cpp` | 12 | 11 |
| `SOM/src/lib/LearningRestraintFunc.cpp` | 6 | 6 |
| `SOM/src/lib/NeihbourhoodFunc.cpp` | 31 | 31 |
| `SourceCatalog/SourceCatalog/Catalog.h` | 13 | 2 |
| `SourceCatalog/SourceCatalog/Source.h` | 23 | 14 |
| `SourceCatalog/SourceCatalog/SourceAttributes/Pdf.h` | 6 | 2 |
| `SourceCatalog/SourceCatalog/SourceAttributes/PdfFromRow.h` | 18 | 9 |
| `SourceCatalog/SourceCatalog/SourceAttributes/Photometry.h` | 53 | 25 |
| `SourceCatalog/SourceCatalog/SourceAttributes/PhotometryAttributeFromRow.h` | 19 | 8 |
| `SourceCatalog/SourceCatalog/SourceAttributes/SpectroscopicRedshiftAttributeFromRow.h` | 32 | 29 |
| `SourceCatalog/SourceCatalog/SourceAttributes/TableRowAttribute.h` | 5 | 3 |
| `SourceCatalog/SourceCatalog/_impl/Photometry.icpp` | 20 | 10 |
| `SourceCatalog/SourceCatalog/_impl/Source.icpp` | 7 | 7 |
| `SourceCatalog/src/lib/Catalog.cpp` | 12 | 12 |
| `SourceCatalog/src/lib/CatalogFromTable.cpp` | 19 | 18 |
| `SourceCatalog/src/lib/FluxErrorPair.cpp` | 7 | 5 |
| `SourceCatalog/src/lib/Photometry.cpp` | 14 | 12 |
| `SourceCatalog/src/lib/PhotometryAttributeFromRow.cpp` | 100 | 99 |
| `SourceCatalog/src/lib/TableRowAttribute.cpp` | 3 | 2 |
| `SourceCatalog/src/lib/TableRowAttributeFromRow.cpp` | 2 | 2 |
| `Table/Table/AsciiReader.h` | 26 | 1 |
| `Table/Table/AsciiWriter.h` | 21 | 2 |
| `Table/Table/CastVisitor.h` | 89 | 29 |
| `Table/Table/ColumnDescription.h` | 15 | 15 |
| `Table/Table/ColumnInfo.h` | 10 | 1 |
| `Table/Table/FitsReader.h` | 24 | 9 |
| `Table/Table/FitsWriter.h` | 25 | 9 |
| `Table/Table/Row.h` | 17 | 4 |
| `Table/Table/Table.h` | 11 | 1 |
| `Table/Table/TableReader.h` | 15 | 2 |
| `Table/src/lib/AsciiReader.cpp` | 139 | 139 |
| `Table/src/lib/AsciiReaderHelper.cpp` | 202 | 201 |
| `Table/src/lib/AsciiReaderHelper.h` | 15 | 6 |
| `Table/src/lib/AsciiWriter.cpp` | 58 | 58 |
| `Table/src/lib/AsciiWriterHelper.cpp` | 50 | 50 |
| `Table/src/lib/AsciiWriterHelper.h` | 12 | 9 |
| `Table/src/lib/ColumnDescription.cpp` | 8 | 8 |
| `Table/src/lib/ColumnInfo.cpp` | 33 | 29 |
| `Table/src/lib/FitsReader.cpp` | 76 | 73 |
| `Table/src/lib/FitsReaderHelper.cpp` | 125 | 125 |
| `Table/src/lib/FitsWriter.cpp` | 62 | 54 |
| `Table/src/lib/FitsWriterHelper.cpp` | 161 | 147 |
| `Table/src/lib/ReaderHelper.cpp` | 6 | 6 |
| `Table/src/lib/Row.cpp` | 46 | 38 |
| `Table/src/lib/Table.cpp` | 20 | 12 |
| `Table/src/lib/TableWriter.cpp` | 7 | 7 |
| `XYDataset/XYDataset/AsciiParser.h` | 8 | 1 |
| `XYDataset/XYDataset/QualifiedName.h` | 29 | 4 |
| `XYDataset/XYDataset/serialize.h` | 12 | 11 |
| `XYDataset/src/lib/AsciiParser.cpp` | 66 | 66 |
| `XYDataset/src/lib/CachedProvider.cpp` | 18 | 15 |
| `XYDataset/src/lib/FileSystemProvider.cpp` | 83 | 82 |
| `XYDataset/src/lib/FitsParser.cpp` | 43 | 41 |
| `XYDataset/src/lib/QualifiedName.cpp` | 54 | 43 |
| `XYDataset/src/lib/StringFunctions.cpp` | 39 | 39 |
| `XYDataset/src/lib/XYDataset.cpp` | 21 | 11 |

