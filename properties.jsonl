{"id": "C01", "title": "Radius query of a KdTree equals a linear scan", "statement": "A tree built from a list of objects answers findPointsWithinRadius(center, r) with exactly the objects whose squared distance to the center is below r*r, every such object as often as it occurs in the input and nothing else, whatever the leaf size (at least one) and however many coordinates coincide.", "quantifier": "for every list of objects, number of dimensions, leaf size >= 1, query centre and radius >= 0", "why_tests_cant": "The result depends on how the median split separates (possibly equal) coordinates at every depth; the number of shapes of the tree is unbounded.", "anchors": ["KdTree/KdTree/_impl/KdTree.icpp: Leaf::findPointsWithinRadius, Split::Split, Split::findPointsWithinRadius, KdTree::KdTree"]}
{"id": "C02", "title": "NdArray coordinates address distinct cells in row-major order", "statement": "For an array of a given shape, at(coords) accepts exactly the coordinate vectors of the right length with every component below its dimension and throws for every other one; accepted vectors address pairwise different cells, every cell is addressed by one of them, and the cell number is the row-major rank of the coordinates.", "quantifier": "for every shape, every coordinate vector", "why_tests_cant": "Shapes and coordinate vectors of every rank are infinitely many.", "anchors": ["NdArray/NdArray/_impl/NdArray.icpp: update_strides, get_offset, at", "NdArray/NdArray/NdArray.h"]}
{"id": "C03", "title": "NdArray slices are views of their parent", "statement": "The element at coordinates c of slice(i) is the element (i, c...) of the parent, and the element at c of rslice(i) is the element (c..., i) of the parent; this holds for slices of slices in any mixture, and a write through a slice is visible at that parent element and at no other.", "quantifier": "for every shape, every finite chain of slice and rslice with valid indices, every coordinate vector, every write", "why_tests_cant": "The number of chains of slicing operations is unbounded and offsets/strides interact.", "anchors": ["NdArray/NdArray/_impl/NdArray.icpp: slice, rslice, get_offset"]}
{"id": "C04", "title": "Iterating an NdArray or any slice of it visits every element once, in row-major order", "statement": "begin()..end() yields size() elements; the k-th one is the element whose coordinates have row-major rank k, also for slices of any kind.", "quantifier": "for every shape, every chain of slices, every position k", "why_tests_cant": "Iteration uses only the last stride, so correctness depends on the shape of the whole slicing history.", "anchors": ["NdArray/NdArray/_impl/NdArray.icpp: Iterator, begin, end, slice, rslice"]}
{"id": "C05", "title": "reshape keeps the flat order of the elements", "statement": "reshape to a shape with the same number of elements succeeds and leaves the sequence of elements seen by iteration unchanged; reshape to any other number of elements throws and changes nothing.", "quantifier": "for every array (slices included) and every new shape", "why_tests_cant": "All shapes and slicing histories.", "anchors": ["NdArray/NdArray/_impl/NdArray.icpp: reshape"]}
{"id": "C06", "title": "concatenate appends the rows of the other array", "statement": "After a.concatenate(b) for two arrays with the same trailing dimensions, a has a.shape[0]+b.shape[0] rows, size() equals the product of the new shape, iteration gives the old elements of a followed by the elements of b; different trailing dimensions throw.", "quantifier": "for every pair of arrays", "why_tests_cant": "All shapes and contents; bookkeeping fields must agree after the operation and after further operations.", "anchors": ["NdArray/NdArray/_impl/NdArray.icpp: concatenate, size, begin, end"]}
{"id": "C07", "title": "copy() of an NdArray is equal to the original and independent of it", "statement": "copy() has the same shape and elements as the array it was made from (also if that is a slice), and later writes to either are invisible in the other.", "quantifier": "for every array, every slice of it, every later write", "why_tests_cant": "All slices and shapes.", "anchors": ["NdArray/NdArray/_impl/NdArray.icpp: copy, self copy constructor, ContainerWrapper::copy"]}
{"id": "C08", "title": "unravel_index inverts row-major flattening", "statement": "unravel_index(k, shape) returns the coordinate vector whose row-major rank is k for every k below the number of elements and throws for larger k.", "quantifier": "for every shape without zero dimension and every index", "why_tests_cant": "All shapes and indices.", "anchors": ["NdArray/src/Operations.cpp: unravel_index"]}
{"id": "C09", "title": "An npy file written for an array reads back as the same array", "statement": "readNpy(writeNpy(a)) has the shape, the attribute names and the elements of a.", "quantifier": "for every shape, every list of attribute names, every content", "why_tests_cant": "The header is text that is parsed back by substring searches; the set of shapes and names is infinite.", "anchors": ["NdArray/NdArray/io/_impl/NpyCommon.h: writeNpyHeader, parseNpyHeader, getShape helpers", "NdArray/NdArray/io/_impl/NpyReader.icpp", "NdArray/NdArray/io/_impl/NpyWriter.icpp"]}
{"id": "C10", "title": "The data section of every npy file starts at a multiple of 64", "statement": "For every header the magic, version, length field and padded dictionary together have a length divisible by 64, the length field equals the dictionary length and the header ends in a newline.", "quantifier": "for every shape and attribute list whose header fits the length field", "why_tests_cant": "All header lengths modulo 64 occur; tests pick a few.", "anchors": ["NdArray/NdArray/io/_impl/NpyCommon.h: writeNpyHeader"]}
{"id": "C11", "title": "A LRU file manager never has more than its limit of files open", "statement": "Whatever sequence of opens, closes, uses, and closing callbacks that accept or refuse, at every moment the number of files that the manager has open is at most the limit, and getUsed()+getAvailable() is the limit.", "quantifier": "for every limit >= 1 and every finite history of operations, with every answer of the closing callbacks", "why_tests_cant": "Histories are unbounded, and callbacks re-enter the manager.", "anchors": ["FilePool/src/lib/LRUFileManager.cpp: notifyIntentToOpen, notifyOpenedFile, notifyClosedFile, notifyUsed, getUsed, getAvailable", "FilePool/FilePool/_impl/FileManager.icpp: open, close"]}
{"id": "C12", "title": "Eviction takes the least recently used file whose owner agrees", "statement": "When a file must be closed to make room, the victim is the first one, in order of last use, whose callback accepts; files whose callback refuses stay open and keep their place; if all refuse, open fails with an exception and no file has been closed.", "quantifier": "for every history and every pattern of refusals", "why_tests_cant": "The recency order depends on the complete history.", "anchors": ["FilePool/src/lib/LRUFileManager.cpp: notifyIntentToOpen, notifyUsed"]}
{"id": "C13", "title": "Every descriptor opened through a file handler is known to the handler until it is closed", "statement": "At every moment each open file belongs either to exactly one live accessor or to the handler's list of idle descriptors, so it can be evicted or reused; no descriptor is given to two accessors at once.", "quantifier": "for every sequence of read/write accessor requests, of any stream types, accessor releases and evictions on a handler", "why_tests_cant": "Needs all interleavings of accessor life times and stream types.", "anchors": ["FilePool/FilePool/_impl/FileHandler.icpp: getWriteAccessor, getReadAccessor", "FilePool/src/lib/FileHandler.cpp: close"]}
{"id": "C14", "title": "A write accessor excludes every other accessor to the same path", "statement": "While a write accessor for a file lives no other accessor for it exists; while read accessors live no write accessor exists; a non-blocking request succeeds exactly when the file is free for it.", "quantifier": "for every history of blocking and non-blocking requests and releases", "why_tests_cant": "All schedules of requests.", "anchors": ["FilePool/FilePool/_impl/FileHandler.icpp: getWriteAccessor, getReadAccessor"]}
{"id": "C15", "title": "Tasks of a ThreadPool start in submission order and at most once", "statement": "In every execution the sequence of started tasks is a prefix of the sequence of submitted tasks; every task is at any moment in exactly one of the states queued, running, finished.", "quantifier": "for every number of workers, every sequence of submissions, every interleaving of workers and submitters, with tasks that may throw", "why_tests_cant": "Interleavings cannot be enumerated.", "anchors": ["AlexandriaKernel/src/lib/ThreadPool.cpp: Worker::operator(), submit"]}
{"id": "C16", "title": "block() returns only when the work is done", "statement": "When block() returns without rethrowing, no task is queued or running and every task submitted before has finished; if a task threw, block() rethrows an exception of a task that threw.", "quantifier": "for every number of workers and every interleaving", "why_tests_cant": "Interleavings cannot be enumerated.", "anchors": ["AlexandriaKernel/src/lib/ThreadPool.cpp: block, checkForException, Worker::operator()"]}
{"id": "C17", "title": "Grid cells and axis coordinates are in bijection", "statement": "The cell index computed from axis coordinates is below the number of cells and the per-axis index of that cell gives the coordinates back; conversely recombining the per-axis indices of a cell gives the cell. The first axis varies fastest.", "quantifier": "for every number of axes and axis sizes, every coordinate tuple in range and every cell index", "why_tests_cant": "All numbers and sizes of axes.", "anchors": ["GridContainer/GridContainer/_impl/GridIndexHelper.icpp: axisIndex, totalIndex", "GridContainer/GridContainer/_impl/GridConstructionHelper.h"]}
{"id": "C18", "title": "at() of a GridContainer throws exactly on out-of-range coordinates", "statement": "at(coords) returns the cell addressed by the coordinates if every coordinate is smaller than its axis (and 0 for a fixed axis) and throws otherwise; it never reads outside the cell store.", "quantifier": "for every grid, every slice, every coordinate tuple", "why_tests_cant": "All grids.", "anchors": ["GridContainer/GridContainer/_impl/GridIndexHelper.icpp: checkBounds, checkAllFixedAreZero", "GridContainer/GridContainer/_impl/GridContainer.icpp: at, operator()"]}
{"id": "C19", "title": "A slice of a grid iterates exactly over the cells with the fixed coordinates", "statement": "Iterating from begin() to end() over a grid sliced by fixing any set of axes visits every cell that has the fixed coordinates exactly once, in increasing cell order, and no other.", "quantifier": "for every grid, every set of fixed axes and every fixed index", "why_tests_cant": "The iterator jumps by modular arithmetic; every combination of fixed axes and sizes matters.", "anchors": ["GridContainer/GridContainer/_impl/GridIterator.icpp: operator++, fixAxisByIndex, forwardToIndex, fixAllAxes", "GridContainer/GridContainer/_impl/GridContainer.icpp: begin, end, fixAxisByIndex"]}
{"id": "C20", "title": "A slice of a slice behaves like one slice", "statement": "After fixing several axes one after the other the result reports size() equal to the number of cells it iterates over, and its axes report one knot for each fixed axis.", "quantifier": "for every grid and every sequence of fixed axes", "why_tests_cant": "Number of fixings unbounded.", "anchors": ["GridContainer/GridContainer/_impl/GridContainer.icpp: slicing constructor, size, getAxis, fixAxisByIndex"]}
{"id": "C21", "title": "A grid converted to a table has one row per cell with that cell's axis values", "statement": "gridContainerToTable yields one row for each cell, in iteration order, whose axis columns are the axis values of the cell and whose value columns are the cell's fields.", "quantifier": "for every grid and cell content", "why_tests_cant": "All grids.", "anchors": ["GridContainer/GridContainer/_impl/GridContainerToTable.icpp: gridContainerToTable"]}
{"id": "C22", "title": "A histogram conserves weight", "statement": "The sum of the counts equals the sum of the weights of the values that lie in the range of the bins, and each value is counted in the bin whose edges enclose it.", "quantifier": "for every list of values and weights and every increasing list of edges", "why_tests_cant": "All data sets and edges, including values exactly on an edge.", "anchors": ["Histogram/Histogram/_impl/ComputationImpl.icpp: computeBins", "Histogram/Histogram/Binning/EdgeVector.h: getBinIndex"]}
{"id": "C23", "title": "Clipping a histogram restricts the statistics to the clipped bins", "statement": "After any number of clip(min,max) calls the clipped range only ever shrinks, the counts are those of the bins inside, and bins outside do not influence getStats.", "quantifier": "for every histogram and every sequence of clip calls", "why_tests_cant": "All clip sequences.", "anchors": ["Histogram/Histogram/_impl/ComputationImpl.icpp: clip, getStats, getCounts"]}
{"id": "C24", "title": "Configurations are initialised in dependency order, each once", "statement": "With acyclic declared dependencies initialize() calls preInitialize of every registered configuration, then initialize of each exactly once and after all its dependencies, then postInitialize of every one.", "quantifier": "for every finite acyclic dependency relation and every order of registration", "why_tests_cant": "All dependency graphs.", "anchors": ["Configuration/src/lib/ConfigManager.cpp: closeRegistration, recursiveInitialization, initialize"]}
{"id": "C25", "title": "Circular dependencies between configurations are reported", "statement": "closeRegistration() throws if and only if the declared dependencies contain a cycle, and it always terminates.", "quantifier": "for every finite dependency relation", "why_tests_cant": "All graphs; a search can fail to terminate only on particular shapes.", "anchors": ["Configuration/src/lib/ConfigManager.cpp: hasCircularDependencies, closeRegistration"]}
{"id": "C26", "title": "Excluded filters vanish consistently from the photometric band mapping", "statement": "After reading a mapping file, the filter mapping, the upper-limit thresholds and the convert-from-magnitude flags list the same filters in the same order, namely the mapped ones that are not excluded; an exclusion that names an unknown filter throws.", "quantifier": "for every mapping file and every list of excluded filters", "why_tests_cant": "All files, including repeated names.", "anchors": ["Configuration/src/lib/PhotometricBandMappingConfig.cpp: parseFile, initialize"]}
{"id": "C27", "title": "Wildcard option names are found exactly", "statement": "For a wildcard option prefix the names found are exactly the distinct suffixes of the given options of the form prefix-suffix.", "quantifier": "for every list of prefixes and of given options", "why_tests_cant": "All strings, including prefixes of one another.", "anchors": ["Configuration/src/lib/ProgramOptionsHelper.cpp: wildcard, findWildcardNames"]}
{"id": "C28", "title": "Qualified names are canonical", "statement": "Parsing the string form of a qualified name gives an equal name; two names are equal exactly when their group lists and dataset names are equal, and the order used for maps is a strict total order compatible with equality.", "quantifier": "for every list of groups and every name accepted by the constructor", "why_tests_cant": "All strings.", "anchors": ["XYDataset/src/lib/QualifiedName.cpp: QualifiedName, qualifiedName, belongsInGroup, operator<, operator=="]}
{"id": "C29", "title": "A caching provider is transparent", "statement": "Any sequence of listContents/getDataset calls answers as the underlying provider would, and each name is asked from it at most once.", "quantifier": "for every history of requests and every (constant) underlying provider", "why_tests_cant": "Histories unbounded.", "anchors": ["XYDataset/src/lib/CachedProvider.cpp: listContents, getDataset"]}
{"id": "C30", "title": "Listing a group gives the datasets below that group", "statement": "listContents(group) of the file system provider returns exactly the known qualified names whose leading groups are the given group path, in the provider's order, independent of surplus leading or trailing slashes of the argument.", "quantifier": "for every directory content and every group string", "why_tests_cant": "All strings and trees.", "anchors": ["XYDataset/src/lib/FileSystemProvider.cpp: listContents, FileSystemProvider", "XYDataset/src/lib/StringFunctions.cpp"]}
{"id": "C31", "title": "Polynomial calculus is exact", "statement": "operator() evaluates the polynomial with the given coefficients; derivative() and indefiniteIntegral() give its derivative and an antiderivative vanishing at 0; integrate(a,b) is the definite integral; the product of two polynomials evaluates to the product of values.", "quantifier": "for every coefficient vector and argument (exact arithmetic)", "why_tests_cant": "All degrees and arguments.", "anchors": ["MathUtils/src/lib/function/Polynomial.cpp", "MathUtils/src/lib/function/Differentiable.cpp: integrate", "MathUtils/src/lib/function/multiplication.cpp: multiplyPolynomials"]}
{"id": "C32", "title": "A piecewise function is the right piece on each interval and integrates to the sum of its pieces", "statement": "operator()(x) applies the piece whose interval (left-open, right-closed, the first one closed) holds x and is 0 outside; integrate(a,b) is additive, antisymmetric and equals the sum of the integrals of the pieces over the parts of their intervals inside [a,b].", "quantifier": "for every list of knots, pieces, arguments and limits (exact arithmetic)", "why_tests_cant": "All knot lists and limits, including limits at knots and outside the range.", "anchors": ["MathUtils/src/lib/function/Piecewise.cpp: Piecewise, operator(), integrate"]}
{"id": "C33", "title": "multiply() of two functions evaluates to the product", "statement": "The product of two piecewise functions evaluates, on every argument, to the product of the values of the factors, and is 0 outside the overlap of their ranges.", "quantifier": "for every pair of piecewise functions and every argument", "why_tests_cant": "All relative positions of two knot lists.", "anchors": ["MathUtils/src/lib/function/multiplication.cpp: overlappingKnots, multiplyPiecewises"]}
{"id": "C34", "title": "Linear interpolation reproduces the data and stays between neighbours", "statement": "interpolate(x, y, LINEAR) takes the value y[i] at each x[i], between two consecutive knots it lies on the straight line of the two points, and outside it is 0 or, with extrapolation, on the line of the outermost segment.", "quantifier": "for every strictly increasing x with at least two points, every y, every argument", "why_tests_cant": "All knot lists.", "anchors": ["MathUtils/src/lib/interpolation/interpolation.cpp: interpolate", "MathUtils/src/lib/interpolation/linear.cpp: linearInterpolation"]}
{"id": "C35", "title": "Cubic spline interpolation is a natural C2 interpolant", "statement": "The spline takes the value y[i] at each x[i], its pieces agree in value, first and second derivative at the inner knots, and the second derivative vanishes at both ends.", "quantifier": "for every strictly increasing x with at least two points and every y (exact arithmetic)", "why_tests_cant": "All knot lists.", "anchors": ["MathUtils/src/lib/interpolation/spline.cpp: splineInterpolation"]}
{"id": "C36", "title": "simple_interpolation of tabulated points", "statement": "For an argument inside the range it returns the value on the segment between the two neighbouring points, exactly y[i] at x[i]; outside it returns 0, or extrapolates if asked.", "quantifier": "for every sorted x (equal neighbours allowed), every y and argument", "why_tests_cant": "All tables, including duplicated abscissae.", "anchors": ["MathUtils/src/lib/interpolation/interpolation.cpp: simple_interpolation"]}
{"id": "C37", "title": "N-dimensional grid interpolation reproduces nodes", "statement": "interpn and InterpN return the stored value at every grid node, are affine along every continuous axis between neighbouring knots, and return 0 outside the grid unless extrapolation is on.", "quantifier": "for every number of axes, grid and content (exact arithmetic)", "why_tests_cant": "All dimensions and grids.", "anchors": ["MathUtils/MathUtils/interpolation/_impl/GridInterpolation.icpp: InterpN", "MathUtils/MathUtils/interpolation/_impl/interpolation.icpp: interpn"]}
{"id": "C38", "title": "The inverse cumulative of a sampled density inverts the cumulative", "statement": "For a piecewise linear density the returned point x lies within the knots and the integral of the density up to x is p times the total; for discrete densities it returns the first knot whose cumulative sum reaches p.", "quantifier": "for every sampled density and every p in [0,1] (exact arithmetic)", "why_tests_cant": "All densities, including zero-probability stretches and rising or falling segments.", "anchors": ["MathUtils/MathUtils/helpers/_impl/InverseCumulative.icpp", "MathUtils/src/lib/helpers/Solvers.cpp: solveSquare"]}
{"id": "C39", "title": "findMinInterval returns a shortest interval of the required mass", "statement": "Cumulative::findMinInterval(rate) returns sample points a<=b whose interval holds at least rate of the mass, and no pair of sample points with that mass is closer.", "quantifier": "for every sampled cumulative distribution and rate", "why_tests_cant": "All distributions; the two-pointer search must not miss a pair.", "anchors": ["MathUtils/src/lib/PDF/Cumulative.cpp: findMinInterval, findCenteredInterval, findValue, fromPdf, normalize"]}
{"id": "C40", "title": "extractNHighestModes and extractNBigestModes return at most n modes in order", "statement": "At most n modes are returned, ordered by decreasing height (resp. area); extraction terminates and never reads outside the sampling.", "quantifier": "for every sampled density, merge ratio and n", "why_tests_cant": "All densities and n.", "anchors": ["MathUtils/src/lib/PDF/PdfModeExtraction.cpp: extractNHighestModes, extractNBigestModes, catchPeak, findMaximumIndex"]}
{"id": "C41", "title": "Simpson refinement agrees with direct evaluation and is exact for cubics", "statement": "Refining the Simpson estimate of order n-1 gives the same number as evaluating the rule of order n directly, and the rule is exact for polynomials up to degree three.", "quantifier": "for every function, interval and order (exact arithmetic)", "why_tests_cant": "All orders and functions.", "anchors": ["MathUtils/src/lib/numericalIntegration/SimpsonsRule.cpp", "MathUtils/MathUtils/numericalIntegration/_impl/AdaptativeIntegration.icpp"]}
{"id": "C42", "title": "Reading an ASCII table in chunks gives the same rows as reading it at once", "statement": "For any sequence of read(n)/skip(n) calls the rows returned are the corresponding consecutive data lines of the stream, hasMoreRows() is true exactly if a data line is left and rowsLeft() is their number; comments and blank lines never count.", "quantifier": "for every stream content and every sequence of calls", "why_tests_cant": "All texts and call sequences.", "anchors": ["Table/src/lib/AsciiReader.cpp: readImpl, skip, hasMoreRows, rowsLeft", "Table/src/lib/AsciiReaderHelper.cpp: hasNextRow, countRemainingRows"]}
{"id": "C43", "title": "A table written as ASCII reads back as the same table", "statement": "AsciiReader on the output of AsciiWriter gives the same column names, types and cell values, whatever characters the names and string cells contain (no line breaks), and also if the table was written in several addData calls.", "quantifier": "for every table of boolean, integer, string and integer-vector columns", "why_tests_cant": "All strings: quoting, escaping, comments and padding interact.", "anchors": ["Table/src/lib/AsciiWriter.cpp: init, append", "Table/src/lib/AsciiWriterHelper.cpp: quoted, calculateColumnLengths, typeToKeyword", "Table/src/lib/AsciiReader.cpp: readColumnInfo, readImpl", "Table/src/lib/AsciiReaderHelper.cpp"]}
{"id": "C44", "title": "Type keywords are read back as the type they were written for", "statement": "keywordToType(typeToKeyword(t)) is t for every cell type the writer accepts.", "quantifier": "for every cell type", "why_tests_cant": "The two tables are maintained separately; a finite but complete check is needed together with the parsing of the descriptions that carry the keywords.", "anchors": ["Table/src/lib/AsciiReaderHelper.cpp: keywordToType", "Table/src/lib/AsciiWriterHelper.cpp: typeToKeyword"]}
{"id": "C45", "title": "Rows and tables are always well formed", "statement": "Every Row that can be constructed has one non-empty cell per column of the declared type, every Table has at least one row and all rows have the table's columns; column names are unique and non-empty; access by name and by index agree.", "quantifier": "for every cell vector and column info", "why_tests_cant": "All inputs.", "anchors": ["Table/src/lib/Row.cpp: Row, operator[]", "Table/src/lib/Table.cpp: Table", "Table/src/lib/ColumnInfo.cpp: ColumnInfo, find"]}
{"id": "C46", "title": "The FITS dimension keyword round-trips shapes", "statement": "The TDIM string written for an array column is parsed back to the array's shape.", "quantifier": "for every shape", "why_tests_cant": "All shapes.", "anchors": ["Table/src/lib/FitsWriterHelper.cpp: getTDIM", "Table/src/lib/FitsReaderHelper.cpp: parseTDIM"]}
{"id": "C47", "title": "FITS chunked reading and skipping keep an exact row count", "statement": "For any sequence of read(n)/skip(n) on a FITS table rowsLeft() is the number of rows not yet consumed, hasMoreRows() is true exactly if it is positive, and the chunks concatenate to the table.", "quantifier": "for every number of rows and every sequence of calls", "why_tests_cant": "All call sequences.", "anchors": ["Table/src/lib/FitsReader.cpp: readImpl, skip, hasMoreRows, rowsLeft"]}
{"id": "C48", "title": "FITS column formats are read back as the written types", "statement": "For every column type and cell length, the type that the reader derives from the format string the writer chose is the written type.", "quantifier": "for every cell type and cell size", "why_tests_cant": "Lengths are unbounded; boundary lengths matter.", "anchors": ["Table/src/lib/FitsWriterHelper.cpp: getBinaryFormatList, getAsciiFormatList", "Table/src/lib/FitsReaderHelper.cpp: binaryFormatToType, asciiFormatToType"]}
{"id": "C49", "title": "CastVisitor conversions never change the represented value", "statement": "When CastVisitor converts a cell to another type the result represents the same value, otherwise it throws.", "quantifier": "for every source cell (boolean, integers, strings, vectors) and every target type", "why_tests_cant": "All strings and integer ranges.", "anchors": ["Table/Table/CastVisitor.h"]}
{"id": "C50", "title": "A catalog finds exactly the sources it was built from", "statement": "Constructing a Catalog throws exactly if two sources have the same id; otherwise find(id) returns the source with that id if there is one and nothing otherwise; iteration and size() follow the input.", "quantifier": "for every list of sources and every id", "why_tests_cant": "All lists.", "anchors": ["SourceCatalog/src/lib/Catalog.cpp: Catalog, find, size"]}
{"id": "C51", "title": "Photometry created from a row obeys the missing-data and upper-limit conventions", "statement": "Each created flux/error pair belongs to the filter it is named after; a missing value has the missing flag and error 0, an upper limit has positive flux and positive error, an ordinary value a positive error; rows that violate the conventions throw; the result depends on the filter's own flux, error, threshold and convert flag only.", "quantifier": "for every list of filters, row, thresholds and conversion flags", "why_tests_cant": "The decision table is combined with parallel iteration over four lists.", "anchors": ["SourceCatalog/src/lib/PhotometryAttributeFromRow.cpp: createAttribute, convertFromMag"]}
{"id": "C52", "title": "Equality of flux/error pairs is an equivalence relation", "statement": "operator== of FluxErrorPair is reflexive, symmetric and transitive.", "quantifier": "for all triples of pairs", "why_tests_cant": "All triples.", "anchors": ["SourceCatalog/src/lib/FluxErrorPair.cpp: operator=="]}
{"id": "C53", "title": "Photometry::find returns the value of the named filter", "statement": "find(name) returns the value stored at the (first) position of that filter name, and nothing if the name does not occur; iteration pairs the i-th name with the i-th value.", "quantifier": "for every list of filter names and values and every name", "why_tests_cant": "All lists.", "anchors": ["SourceCatalog/src/lib/Photometry.cpp: find, size", "SourceCatalog/SourceCatalog/SourceAttributes/Photometry.h: Photometry"]}
{"id": "C54", "title": "Cosmological distances are consistent", "statement": "The dimensionless Hubble parameter is 1 at redshift 0; the transverse comoving distance is at least the comoving one for open and at most it for closed models, equal for flat; luminosity distance is (1+z) times it; the distance modulus at z=0 is 0.", "quantifier": "for all parameters and redshifts (real arithmetic, exact integral)", "why_tests_cant": "All parameters.", "anchors": ["PhysicsUtils/src/lib/CosmologicalDistances.cpp", "PhysicsUtils/src/lib/CosmologicalParameters.cpp"]}
{"id": "C55", "title": "findBMU returns a cell of minimal distance", "statement": "The reported best matching unit is a cell of the map, no cell is closer to the input, the reported distance is that cell's distance, and among equals the first in iteration order is taken.", "quantifier": "for every map size, content, distance function and input", "why_tests_cant": "All maps.", "anchors": ["SOM/SOM/_impl/SOM.icpp: findBMU", "SOM/SOM/Distance.h"]}
{"id": "C56", "title": "Training moves weights towards the sample and never beyond", "statement": "With learning and neighbourhood factors in [0,1] every updated weight lies between the old weight and the sample component, so all weights stay in the convex hull of initial weights and samples.", "quantifier": "for every map, every sequence of samples and iterations, every neighbourhood function with values in [0,1]", "why_tests_cant": "All training histories.", "anchors": ["SOM/SOM/SOMTrainer.h: train", "SOM/src/lib/LearningRestraintFunc.cpp", "SOM/src/lib/NeihbourhoodFunc.cpp"]}
{"id": "C57", "title": "The unit-disk neighbourhood function depends on the distance only", "statement": "linearUnitDisk is 1 for the cells whose distance to the best matching unit on the map is below a radius that shrinks linearly with the iteration from the given radius to 0, and 0 for the others, equally in all directions.", "quantifier": "for every pair of cells, radius and iteration", "why_tests_cant": "All positions, including cells beyond and before the BMU.", "anchors": ["SOM/src/lib/NeihbourhoodFunc.cpp: linearUnitDisk"]}
{"id": "C58", "title": "Sampling policies visit what they promise", "statement": "For every input range, also an empty one: FullSet visits every element exactly once in order; Bootstrap visits one element of the input, and every element can be chosen; Jackknife visits min(sample size, input size) distinct elements of the input, and every such selection can occur.", "quantifier": "for every input length, every outcome of the random generator", "why_tests_cant": "All lengths and all random draws.", "anchors": ["SOM/SOM/SamplingPolicy.h"]}
{"id": "C59", "title": "A saved self-organizing map loads as the same map", "statement": "The serialized form of a SOM reads back with the same dimensions and weights.", "quantifier": "for every map", "why_tests_cant": "All sizes and contents.", "anchors": ["SOM/SOM/serialization/SOM.h", "SOM/SOM/serialize.h"]}
{"id": "C60", "title": "Attribute names address the same values through slices", "statement": "at(coords, name) of an array with attribute names is the element whose last coordinate is the position of the name, and reading an attribute through a slice gives the value that the parent has under that name.", "quantifier": "for every array with attribute names, every slice, name and coordinate vector", "why_tests_cant": "All shapes and name lists.", "anchors": ["NdArray/NdArray/_impl/NdArray.icpp: slice, rslice, get_offset"]}
{"id": "C61", "title": "NdArray equality compares shape and all elements", "statement": "operator== is true exactly if the shapes are equal and the elements at all coordinates are equal, also for slices and after any operation.", "quantifier": "for every pair of arrays or slices", "why_tests_cant": "All shapes, contents and histories.", "anchors": ["NdArray/NdArray/_impl/NdArray.icpp: operator==, concatenate"]}
{"id": "C62", "title": "Summing over an axis", "statement": "sum(array, axis) has the shape without that axis and each element is the sum of the input over the axis; negative axes count from the end; invalid axes throw; sum(array) is the sum of all elements.", "quantifier": "for every array or slice, axis and content", "why_tests_cant": "All shapes.", "anchors": ["NdArray/NdArray/_impl/Operations.icpp: sum"]}
{"id": "C63", "title": "argmax and argmin", "statement": "They return the coordinates of the first (in row-major order) largest or smallest element.", "quantifier": "for every array or slice with at least one element", "why_tests_cant": "All shapes and contents.", "anchors": ["NdArray/NdArray/_impl/Operations.icpp: argmax, argmin"]}
{"id": "C64", "title": "Trapezoidal integration along an axis", "statement": "trapz gives at every remaining coordinate the sum over consecutive knots of half the sum of the values times the knot distance; a wrong number of knots throws.", "quantifier": "for every array or slice, axis and knots (exact arithmetic)", "why_tests_cant": "All shapes.", "anchors": ["NdArray/NdArray/_impl/Operations.icpp: trapz"]}
{"id": "C65", "title": "GridAxis::infimum finds the knot below a value", "statement": "On an axis with increasing knots infimum(value) is the position of the greatest knot not above the value, clipped to the first knot.", "quantifier": "for every axis with strictly increasing knots and every value", "why_tests_cant": "All knot lists and values.", "anchors": ["GridContainer/GridContainer/_impl/GridAxis.icpp: infimum"]}
{"id": "C66", "title": "A grid and its slices share their cells", "statement": "A value written through a grid or any slice of it is what every other view of the grid reads at the same cell, and no other cell changes.", "quantifier": "for every grid, pair of slices, coordinates and value", "why_tests_cant": "All grids and chains of slices.", "anchors": ["GridContainer/GridContainer/_impl/GridContainer.icpp: at, fixAxisByIndex"]}
{"id": "C67", "title": "Counts, bins and edges of a histogram line up", "statement": "getEdges returns one edge more than there are bins and getBins one centre per count, each strictly between its edges, also after clipping.", "quantifier": "for every increasing edge vector, data and sequence of clips", "why_tests_cant": "All edge vectors, data sets and clip sequences.", "anchors": ["Histogram/Histogram/Histogram.h: getCounts, getEdges, getBins"]}
{"id": "C68", "title": "The histogram median halves the weight", "statement": "The median returned by getStats is the point below which half of the weight inside the clip lies when each bin's weight is spread evenly over the bin.", "quantifier": "for every histogram with non-negative counts and positive total", "why_tests_cant": "All count vectors; the existing tests use symmetric ones.", "anchors": ["Histogram/Histogram/_impl/ComputationImpl.icpp: getStats"]}
{"id": "C69", "title": "Mean and sigma of a histogram are the weighted moments of the bins inside the clip", "statement": "mean = sum n_i c_i / sum n_i and sigma = sqrt(sum n_i c_i^2 / sum n_i - mean^2) over the bins inside the clip, c_i being the bin centres.", "quantifier": "for every histogram, clip and count vector with non-zero total", "why_tests_cant": "All histograms and clips.", "anchors": ["Histogram/Histogram/_impl/ComputationImpl.icpp: getStats"]}
{"id": "C70", "title": "ThreadPool has no data race on its exception pointer", "statement": "No two threads access m_exception_ptr at the same time when one of them writes it.", "quantifier": "for every number of workers and every interleaving", "why_tests_cant": "Races show only under particular schedules.", "anchors": ["AlexandriaKernel/src/lib/ThreadPool.cpp: Worker::operator(), checkForException", "AlexandriaKernel/AlexandriaKernel/ThreadPool.h: ThreadPool"]}
{"id": "C71", "title": "After a task threw, no new task is started", "statement": "Once the exception of a task is recorded no further task of the pool begins.", "quantifier": "for every number of workers, task list and interleaving", "why_tests_cant": "Depends on the interleaving of workers between check and start.", "anchors": ["AlexandriaKernel/src/lib/ThreadPool.cpp: Worker::operator(), checkForException", "AlexandriaKernel/AlexandriaKernel/ThreadPool.h: ThreadPool"]}
{"id": "C72", "title": "Destructor and counters of the ThreadPool", "statement": "When the destructor returns every worker has ended, every task that began has finished and the others never begin; at any moment running() is at least the number of tasks being executed and queued() is the number of tasks not handed out.", "quantifier": "for every number of workers and every interleaving", "why_tests_cant": "Interleavings cannot be enumerated.", "anchors": ["AlexandriaKernel/src/lib/ThreadPool.cpp: Worker::operator(), checkForException", "AlexandriaKernel/AlexandriaKernel/ThreadPool.h: ThreadPool"]}
{"id": "C73", "title": "The limit of open files holds while several threads open files", "statement": "Whatever the interleaving of calls to open() in several threads, the number of files open is at most the limit and getUsed()+getAvailable() is the limit.", "quantifier": "for every limit, number of threads and interleaving", "why_tests_cant": "Races are rare in tests; the window is between two lock acquisitions.", "anchors": ["FilePool/FilePool/_impl/FileManager.icpp: open 41-59", "FilePool/src/lib/LRUFileManager.cpp: notifyIntentToOpen 39-58"]}
{"id": "C74", "title": "A request for an accessor ends", "statement": "A call to getAccessor returns an accessor or a null pointer, waits for other accessors, or throws; it never waits for a mutex held by the calling thread.", "quantifier": "for every history of requests and releases and every request, in particular with the manager at its limit", "why_tests_cant": "Needs the manager full at the moment of the request and the callback of the same handler first in the list.", "anchors": ["FilePool/FilePool/_impl/FileHandler.icpp: getReadAccessor 84-136, getWriteAccessor 26-82", "FilePool/src/lib/FileHandler.cpp: close 37-45"]}
{"id": "C75", "title": "At most one file handler is alive for a path", "statement": "As long as the handler returned by getFileHandler for a path is owned by somebody, every further call for that path returns the same handler.", "quantifier": "for every interleaving of getFileHandler calls and releases of handlers in several threads", "why_tests_cant": "The race is between the last release and the deleter.", "anchors": ["FilePool/src/lib/FileManager.cpp: getFileHandler 91-117"]}
{"id": "C76", "title": "A truncated npy file is not read as an array", "statement": "readNpy of a proper prefix of a file written by writeNpy throws an exception.", "quantifier": "for every array and every cut", "why_tests_cant": "The cut position and the content are arbitrary.", "anchors": ["NdArray/NdArray/io/_impl/NpyReader.icpp: readNpy 33-51", "NdArray/NdArray/io/_impl/NpyCommon.h: readNpyHeader 203-241"]}
{"id": "C77", "title": "The headers written by numpy are understood", "statement": "For every supported plain type and every shape, the header that numpy writes (formats 1.0 and 2.0, any padding) gives that type and that shape.", "quantifier": "for every type, shape, padding and following data", "why_tests_cant": "Infinitely many shapes; the parser searches for substrings.", "anchors": ["NdArray/NdArray/io/_impl/NpyCommon.h: parseNpyDict 163-187, readNpyHeader 203-241", "AlexandriaKernel/AlexandriaKernel/StringUtils.h: stringToVector 43-55"]}
{"id": "C78", "title": "A memory mapped npy file always agrees with its header", "statement": "After createMmapNpy, and after every resize that succeeds, the file is the header of its shape followed by exactly as many elements as the shape has, the data start at a multiple of 64, the mapping is large enough and the old data are unchanged; a resize that is refused changes nothing.", "quantifier": "for every type, shape, attribute list, maximum size and new shape", "why_tests_cant": "Header lengths and sizes are unbounded; the failure needs a resize beyond the mapping.", "anchors": ["NdArray/NdArray/io/_impl/NpyCommon.h: MappedContainer::resize 344-363", "NdArray/NdArray/io/_impl/NpyMmap.icpp: createMmapNpy 61-91"]}
{"id": "C79", "title": "The u-matrix summarises the distances to the touching cells", "statement": "Every cell of the u-matrix is the minimum, maximum or mean of the distances between its weights and those of the cells that touch it (also diagonally), each counted exactly once, cells at the border having fewer.", "quantifier": "for every map with cells, every distance, every type", "why_tests_cant": "All sizes, border and corner positions.", "anchors": ["SOM/SOM/_impl/UMatrix.icpp: computeUMatrix"]}
{"id": "C80", "title": "Projecting inputs on a map distributes them over their best matching units", "statement": "Each cell of the projection is the initial value with all inputs added, in input order, whose best matching unit is that cell; counts over all cells sum to the number of inputs.", "quantifier": "for every map size, every list of inputs, every adder", "why_tests_cant": "All input lists.", "anchors": ["SOM/SOM/_impl/SOMProjector.icpp: project_impl"]}
{"id": "C81", "title": "The Kohonen neighbourhood is a cut-off Gaussian of the distance on the map", "statement": "In every sequence of calls the result is the Gaussian of the distance between the cells with the width of the iteration, unaffected by the width buffered from earlier calls; it lies in [0,1], is 1 at the best matching unit, does not increase with distance; the width starts at half the larger side, does not increase and stays at least 1.", "quantifier": "for every sequence of calls, map sizes, cutoff", "why_tests_cant": "State hidden in the function object; all call orders.", "anchors": ["SOM/src/lib/NeihbourhoodFunc.cpp: kohonen"]}
{"id": "C82", "title": "The learning restraints decrease from their initial value and never vanish", "statement": "linear starts at 1, strictly decreases and is at least 1/total; exponentialDecay starts at the given rate, strictly decreases and stays above rate/e.", "quantifier": "for every number of iterations and rate", "why_tests_cant": "All iteration numbers.", "anchors": ["SOM/src/lib/LearningRestraintFunc.cpp"]}
{"id": "C83", "title": "The files of a directory tree are listed once each, in the order of order.txt", "statement": "getRecursiveDirectoryContents lists every file below the directory exactly once; in each directory the entries named in order.txt come first in that order, the others follow alphabetically.", "quantifier": "for every directory tree and every content of the order.txt files", "why_tests_cant": "All trees and order files.", "anchors": ["XYDataset/src/lib/FileSystemProvider.cpp: getOrder, getRecursiveDirectoryContents"]}
{"id": "C84", "title": "Parameters in the comments of a data set file", "statement": "getParameter(key) returns the values of all lines of the form '# key : value', trimmed, in the order of the file and joined by semicolons.", "quantifier": "for every file text and every key", "why_tests_cant": "All texts.", "anchors": ["XYDataset/src/lib/AsciiParser.cpp: getParameter"]}
{"id": "C85", "title": "A text file is a data set exactly if its first data line has two numbers", "statement": "isDatasetFile is true exactly if the first line that is neither empty nor a comment consists of exactly two numbers.", "quantifier": "for every file text", "why_tests_cant": "All texts, including those without a final newline.", "anchors": ["XYDataset/src/lib/AsciiParser.cpp: isDatasetFile"]}
{"id": "C86", "title": "Path normalisation and data set construction", "statement": "checkEndSlashes leaves exactly one slash at the end, checkBeginSlashes exactly one at the beginning, checkNoBeginSlashes none; the default data set name is the file name without directory and last extension; a data set made of two vectors consists of their pairs and different lengths are refused.", "quantifier": "for every string, every pair of vectors", "why_tests_cant": "All strings.", "anchors": ["XYDataset/src/lib/StringFunctions.cpp", "XYDataset/src/lib/XYDataset.cpp: factory"]}
{"id": "C87", "title": "Registering a configuration registers exactly what it declares", "statement": "registerConfiguration constructs the configuration and all those its constructor declares, directly or not, each after those it declares, and nothing else; if declarations are acyclic it returns.", "quantifier": "for every declaration graph and every state of the manager", "why_tests_cant": "All graphs.", "anchors": ["Configuration/Configuration/_impl/ConfigManager.icpp: registerConfiguration", "Configuration/Configuration/_impl/Configuration.icpp: declareDependency"]}
{"id": "C88", "title": "Life cycle of the configuration manager", "statement": "After closeRegistration no call changes what is registered; getConfiguration only returns configurations that are fully initialised.", "quantifier": "for every sequence of calls", "why_tests_cant": "All interleavings of the calls, with hooks that throw.", "anchors": ["Configuration/src/lib/ConfigManager.cpp", "Configuration/Configuration/_impl/ConfigManager.icpp: getConfiguration"]}
{"id": "C89", "title": "Column options select an existing column", "statement": "The ID, redshift and redshift error columns are the ones with the given name or one-based index; options that do not name a column of the catalogue are refused.", "quantifier": "for every list of columns and all options accepted by preInitialize", "why_tests_cant": "All lists and indices.", "anchors": ["Configuration/src/lib/CatalogConfig.cpp: getIdColumnFromOptions", "Configuration/src/lib/SpecZCatalogConfig.cpp"]}
{"id": "C90", "title": "The catalogue format is detected from the beginning of the file", "statement": "A file is read as FITS exactly if it begins with 'SIMPLE  ='.", "quantifier": "for every file content", "why_tests_cant": "All contents.", "anchors": ["Configuration/src/lib/CatalogConfig.cpp: autoDetectFormatType"]}
{"id": "C91", "title": "Searching a cumulative for a part of its total", "statement": "Cumulative::findValue(ratio, position) returns the abscissa of the first sample whose value is at least ratio times the last value; with position end that of the last of the consecutive samples with the same value, and with middle the mean of the two. A ratio outside [0,1] is refused. Normalising makes the last value 1, keeps the abscissas, and changes no result of findValue, findCenteredInterval or findMinInterval.", "quantifier": "for every non-empty cumulative with a non-negative last value, every ratio in [0,1] and every position; for normalisation, every cumulative with a positive last value and every argument", "why_tests_cant": "A test reads off a handful of ratios on one curve; the trays, ties and scalings are unbounded.", "anchors": ["MathUtils/src/lib/PDF/Cumulative.cpp:92-138", "MathUtils/MathUtils/PDF/Cumulative.h:109-126"]}
{"id": "C92", "title": "The centred interval of a cumulative is an interval", "statement": "Cumulative::findCenteredInterval(rate) returns the end of the tray at (1-rate)/2 of the total and the first sample at (1+rate)/2 of the total, and the first is not after the second.", "quantifier": "for every cumulative with ascending abscissas and values and a positive last value, and every rate in ]0,1]", "why_tests_cant": "Tests use smooth curves, where no single sample holds the weight between both bounds.", "anchors": ["MathUtils/src/lib/PDF/Cumulative.cpp:176-188", "MathUtils/MathUtils/PDF/Cumulative.h:137-146"]}
{"id": "C93", "title": "solveSquare finds exactly the solutions of a quadratic equation", "statement": "solveSquare(a, b, c, y) returns the two real solutions of a x^2 + b x + c = y, the smaller first, and no other number is a solution; with a = 0 it returns the only solution twice; with a = b = 0 it throws; if there is no real solution the results are not numbers.", "quantifier": "for all real coefficients and right-hand sides (exact arithmetic)", "why_tests_cant": "Tests solve a few equations; that both roots are always found, in order and none is missed concerns all coefficients.", "anchors": ["MathUtils/src/lib/helpers/Solvers.cpp:25-35", "MathUtils/MathUtils/helpers/Solvers.h:28-36"]}
{"id": "C94", "title": "Adaptive integration returns the first estimate that agrees with the one before", "statement": "AdaptativeIntegration<SimpsonsRule> returns the estimate of the first order, after the initial one, that differs from the estimate of the order before by at most the relative precision; it integrates polynomials up to degree three exactly. If no two successive estimates agree before 2^30 steps, the number of steps overflows.", "quantifier": "for every function, interval, precision and initial order (exact arithmetic)", "why_tests_cant": "Tests integrate smooth functions that agree early.", "anchors": ["MathUtils/MathUtils/numericalIntegration/_impl/AdaptativeIntegration.icpp:33-46"]}
{"id": "C95", "title": "Finite differences are derivatives at a nearby point", "statement": "derivative(f, x) is the derivative of f at a point between x and x+h, and derivative2nd(f, x) the second derivative at a point between x-h and x+h, for the positive step h chosen by guess_h; for linear, respectively cubic, polynomials they are exact.", "quantifier": "for every differentiable (twice differentiable) real function, every x, and every positive step; for guess_h, every monotone rounding", "why_tests_cant": "Tests compare a few functions with a tolerance.", "anchors": ["MathUtils/src/lib/numericalDifferentiation/FiniteDifference.cpp:32-59"]}
{"id": "C96", "title": "getComment returns the leading comment and leaves the table untouched", "statement": "AsciiReader::getComment returns the comment lines at the position of the stream, trimmed and without the comment indicator; it consumes no data row, and the columns are the same whether or not it was called before.", "quantifier": "for every stream content, comment indicator and state of the reader", "why_tests_cant": "Tests read a comment followed by a table whose columns are not checked.", "anchors": ["Table/src/lib/AsciiReader.cpp:172-196"]}
{"id": "C97", "title": "A data line becomes a row exactly if it has one convertible token per column", "statement": "AsciiReader turns a data line into a row exactly if the number of its tokens is the number of columns, each token can be converted to the type of its column, and no string cell is empty or contains vertical whitespace; every other line makes it throw.", "quantifier": "for every list of columns, every line and every conversion of floating point text", "why_tests_cant": "Unbounded lines: quoting, missing and superfluous tokens interact with the conversion of each column.", "anchors": ["Table/src/lib/AsciiReader.cpp: readImpl", "Table/src/lib/AsciiReaderHelper.cpp: convertToCellType"]}
{"id": "C98", "title": "Column names are taken from the last comment, the descriptions or numbers, in that order", "statement": "The names found for a text with n columns are the words of the last non-empty comment before the data if there are n of them, otherwise those of the `Column:` comments, completed with colK up to n; the text is rejected exactly if the names are not distinct.", "quantifier": "for every text, comment indicator and number of columns", "why_tests_cant": "Unbounded headers: blank lines, empty comments, mixed descriptions and any number of words.", "anchors": ["Table/src/lib/AsciiReaderHelper.cpp: autoDetectColumnNames"]}
{"id": "C99", "title": "A catalog made from a table has the sources of the rows", "statement": "createCatalog succeeds exactly if every row has an integer or text in the identification column, no two rows have the same identification and every attribute can be created; the catalog then consists of the sources of the rows in their order, with the identification and the attributes of the row.", "quantifier": "for every table, identification column and list of attribute makers", "why_tests_cant": "All tables; the identifications are compared after a conversion from two integer types.", "anchors": ["SourceCatalog/src/lib/CatalogFromTable.cpp: CatalogFromTable, createCatalog", "SourceCatalog/SourceCatalog/Source.h: CastSourceIdVisitor"]}
{"id": "C100", "title": "getAttribute returns the first attribute of the type", "statement": "getAttribute<T>() returns the first attribute of the source that has the type T and null exactly if there is none; null attributes are skipped.", "quantifier": "for every list of attributes and type", "why_tests_cant": "All lists.", "anchors": ["SourceCatalog/SourceCatalog/_impl/Source.icpp: getAttribute"]}
{"id": "C101", "title": "Densities and redshifts are taken from their own columns", "statement": "PdfFromRow gives each name the knots of this name and the numbers in its column and throws unless there are as many numbers as knots; the spectroscopic redshift and its error are the numbers in their columns, and the error is 0 if there is no column for it.", "quantifier": "for all maps of knots and columns, column names and rows", "why_tests_cant": "All maps and rows.", "anchors": ["SourceCatalog/SourceCatalog/SourceAttributes/PdfFromRow.h: createAttribute", "SourceCatalog/SourceCatalog/SourceAttributes/SpectroscopicRedshiftAttributeFromRow.h"]}
{"id": "C102", "title": "A configured program reads the catalogue it is told to", "statement": "A program with CatalogConfig, PhotometricBandMappingConfig and any list of PhotometryCatalogConfig, SpecZCatalogConfig and PdfCatalogConfig returns from readAsCatalog exactly one source per row of the file the options stand for, in the order of the rows, with the identification of the identification column and with one attribute per dependent configuration: the photometry has exactly the bands of the mapping file that are not excluded, each judged with its own columns, threshold and kind; the redshift has the columns of the options; the densities have their knots and columns. It never runs into undefined behaviour.", "quantifier": "all option values, mapping files, catalogue files, file systems, lists of dependent configurations", "why_tests_cant": "Every layer has tests with its own small inputs; the composition of option parsing, path resolution, mapping, exclusion, column lookup, conversion and catalogue construction over all inputs is not enumerable.", "anchors": ["Configuration/src/lib/CatalogConfig.cpp", "Configuration/src/lib/PhotometryCatalogConfig.cpp", "Configuration/src/lib/SpecZCatalogConfig.cpp", "Configuration/Configuration/PdfCatalogConfig.h", "Configuration/src/lib/PhotometricBandMappingConfig.cpp"]}
{"id": "C103", "title": "CatalogConfig: calls are allowed by state, and later calls do not change it", "statement": "Over a whole life of a CatalogConfig the base directory is the last one set before initialisation and the file is found from there, the handlers are all those added before the object is final in the order of the calls, calls that come later throw and change nothing, and every getter throws before the state its documentation names.", "quantifier": "all sequences of calls in each of the four states, all options and file systems", "why_tests_cant": "Tests make one call in one state; the order of calls made by other configurations is not under the control of the class.", "anchors": ["Configuration/src/lib/CatalogConfig.cpp", "Configuration/Configuration/CatalogConfig.h"]}
{"id": "C104", "title": "PdfCatalogConfig: one density per name, with the column and knots of its first addition", "statement": "After any sequence of addPdfColumn calls the names of the densities are different and each has both the column and the knots of its first addition; calls after initialisation throw and change nothing; the attribute of a row has for each added name these knots and the numbers of this column.", "quantifier": "all sequences of additions, all rows", "why_tests_cant": "Two maps are kept in parallel; that they never disagree is a statement about all call sequences.", "anchors": ["Configuration/Configuration/PdfCatalogConfig.h", "SourceCatalog/SourceCatalog/SourceAttributes/PdfFromRow.h"]}
{"id": "C105", "title": "Draws from a density on a grid follow the chain of its conditional densities", "statement": "For non-negative densities on a grid of any number of continuous and discrete axes, draw(n) returns n rows and uses n uniform numbers per axis, those of the last axis first; in every row the last element is the quantile of its number in the density with all other axes integrated out (trapezoids, or sums), and each other element is the quantile of its number in the density interpolated at the elements that follow it, with the axes before it integrated out. The values passed in stay unchanged; arrays of a wrong rank and output areas of a wrong size are refused; samplers made from grids use the cell of the grid at the same indices.", "quantifier": "all numbers of axes, knots, densities, sequences of uniform numbers in [0,1], numbers of draws", "why_tests_cant": "The tests draw a few thousand samples and compare histograms; which number determines which element, and that each conditional density is the right one, holds or fails for inputs no histogram resolves.", "anchors": ["MathUtils/MathUtils/PDF/_impl/NdSampler.icpp", "MathUtils/MathUtils/PDF/NdSampler.h", "MathUtils/MathUtils/PDF/NdSamplerFromGrid.h", "MathUtils/MathUtils/helpers/_impl/InverseCumulative.icpp"]}
{"id": "C106", "title": "Tables written to a FITS file in chunks come back as one table", "statement": "Tables with equal columns passed to addData of one FitsWriter one after the other are read back by FitsReader (by the number of the extension or by its name) as one table with the rows of all in their order, the columns, units and descriptions of the first, whatever extensions are added to the file later; extensions that were in the file before stay unchanged and come first, unless the file is replaced. Another writer with the same name that does not replace the file appends its rows to the table. After the first table the name and the comments cannot be changed, and a table with other columns is refused with the file unchanged.", "quantifier": "all tables whose strings have no blanks at their ends (at least one with two characters in the first table), with vectors and arrays of one size of at least two elements per column, later cells not larger than those of the first table; all files and later extensions", "why_tests_cant": "The tests write one small table, once or twice; which rows end up where after several chunks and writers, and that other extensions are untouched, is not covered by any finite set of files.", "anchors": ["Table/src/lib/FitsWriter.cpp", "Table/src/lib/TableWriter.cpp", "Table/src/lib/FitsWriterHelper.cpp", "Table/src/lib/FitsReader.cpp", "Table/src/lib/FitsReaderHelper.cpp"]}
{"id": "C107", "title": "Grids and slices exported to a FITS file come back", "statement": "gridFitsExport adds to the file one image and one table per axis behind what was there, and changes nothing else; gridFitsImport with the number of that image then returns a new grid whose axes have the names and knots of the axes that the exported grid shows (the fixed knot for a fixed axis) and whose cell at every coordinate is the cell of the exported grid at that coordinate, whatever is added to the file later. A grid that is not a slice comes back with the same list of cells.", "quantifier": "all grids and slices with at least one knot per axis, any number of axes with different names, knots that are numbers, strings or qualified names; all files without extensions of the needed names; all later extensions", "why_tests_cant": "A test exports one or two small grids; the order of the cells against the order of the pixels for every number and size of axes, slices, and other contents of the file are infinitely many cases.", "anchors": ["GridContainer/GridContainer/_impl/FitsSerialize.icpp", "GridContainer/GridContainer/serialize.h"]}
{"id": "C108", "title": "Grids exported to a stream come back from it", "statement": "gridImport reads from a stream to which gridExport wrote a grid a grid with the same axes (names and knots) and the same cells and leaves what follows in the stream, so that several grids in one stream come back in their order; this holds also for grids with repeated knots or without cells. A slice comes back as a grid with the axes that it shows and its own cells. Knots and cells may be of any type whose values come back, among them qualified names, which are rebuilt from their groups and name.", "quantifier": "all grids and slices, all numbers and sizes of axes, all types of knots and cells whose own storing is right, all following contents of the stream", "why_tests_cant": "The tests store a few grids of fixed types; that loading consumes exactly what storing wrote for every shape and slice needs a proof.", "anchors": ["GridContainer/GridContainer/serialize.h", "GridContainer/GridContainer/serialization/GridContainer.h", "GridContainer/GridContainer/serialization/GridAxis.h", "GridContainer/GridContainer/serialization/tuple.h", "XYDataset/XYDataset/serialize.h"]}
{"id": "C109", "title": "Datasets in FITS files come back as they were written", "statement": "FitsParser::getDataset gives for a file to which a FitsWriter wrote the points of a dataset as a table of two columns of doubles, in any number of chunks, exactly these points in their order; only the first two columns of the first extension matter, and files with other contents give an exception instead of a dataset. getName gives the value of the keyword or, without it, the name of the file without directory and extension. isDatasetFile answers yes exactly for FITS files whose first extension is a table.", "quantifier": "all datasets, all ways to write them in chunks, all column names, all keywords, all file names, all other extensions of the file", "why_tests_cant": "Tests read a few files; that every written dataset comes back, and that every other content is refused, concerns all datasets and all files.", "anchors": ["XYDataset/src/lib/FitsParser.cpp", "XYDataset/XYDataset/FitsParser.h"]}
{"id": "C110", "title": "Iterators of n-dimensional arrays are random access iterators", "statement": "An iterator that is moved within an array or a slice by any sequence of ++it, it++, += n, + n, -= n and - n shows with it[k] the element k places after the position that it has reached; it equals another iterator of the array exactly if both are at the same position, comparisons and differences are those of the positions, a loop from begin to end meets every element once in the order of the range-based loop, and writing through an iterator changes exactly the element at its position.", "quantifier": "all arrays and slices of fewer than 2^31 elements, all sequences of movements that stay within the array, all values", "why_tests_cant": "Tests increment an iterator a few times; the laws concern all sequences of movements on all arrays and strides.", "anchors": ["NdArray/NdArray/_impl/NdArray.icpp", "NdArray/NdArray/NdArray.h"]}
{"id": "C111", "title": "Fixing an axis of an iterator forwards it to the first cell that has the value", "statement": "Fixing an axis of an iterator by index or by value, at any point of an iteration and with any other axes already fixed, forwards it to the first cell from the current one on that has all the fixed indices, or to the end if there is none. fixAllAxes moves the iterator to the cell whose knots on all axes are those of the cell of another iterator, possibly of a grid with other axes, and throws if an axis does not have the knot.", "quantifier": "all grids, all reachable iterators, all axes and indices, all other grids and iterators", "why_tests_cant": "The tests fix axes at the beginning of an iteration; the interplay of the position, the carry to later axes and the axes already fixed concerns all positions and shapes.", "anchors": ["GridContainer/GridContainer/_impl/GridIterator.icpp", "GridContainer/GridContainer/GridContainer.h"]}
{"id": "C112", "title": "Datasets in ASCII files: the points, the name, and which files are accepted", "statement": "The dataset read from an ASCII file has one point per line that is neither blank nor a comment, in the order of the lines, with the two numbers of the line; a file that isDatasetFile accepts can be read. Its name is the value of the keyword NAME; without that, the word that alone makes up the first non-empty line as a comment; without that, the name of the file without directory and extension.", "quantifier": "all texts, headers, numbers of lines and layouts of the lines, all file names", "why_tests_cant": "The tests read a few files with well-formed headers; the interplay with the detection of column names, which is meant for tables, shows only for particular comments.", "anchors": ["XYDataset/src/lib/AsciiParser.cpp", "Table/src/lib/AsciiReader.cpp", "Table/src/lib/AsciiReaderHelper.cpp"]}
{"id": "C113", "title": "A memory mapped npy file behaves like the array it holds", "statement": "mmapNpy of a file that readNpy can read gives an array of the same shape, names and elements, also after any sequence of assignments to both. In the shared mode the file then is the file of the changed array; in the private mode no operation changes the file. A copy of the array is independent of the array and of the file.", "quantifier": "all element types, shapes, names and elements; all modes, maximum sizes and bytes behind the data; all sequences of assignments, in range or not", "why_tests_cant": "The tests map three small files and write one element; bytes outside of the mapping happen to be readable up to the end of the page, so errors stay unseen.", "anchors": ["NdArray/NdArray/io/_impl/NpyMmap.icpp: mmapNpy 32-58", "NdArray/NdArray/io/_impl/NpyCommon.h: MappedContainer 321-371", "NdArray/NdArray/NdArray.h: ContainerInterface, ContainerWrapper 469-543", "NdArray/NdArray/_impl/NdArray.icpp: NdArray 198-206"]}
{"id": "C114", "title": "closeAll closes exactly the files that nobody uses", "statement": "FileManager::closeAll, and with it the destructor of the manager, ends in every state of the pool, whatever the order of the files in the map. Afterwards no handler has an idle descriptor, the open files are exactly those of the live accessors, which are unchanged. When no accessor exists, all files are closed and no handler that outlives the manager refers to it.", "quantifier": "all limits, all histories of requests, releases and destructions of handlers, all orders of the map", "why_tests_cant": "The history of the pool is arbitrary; the failures are uses of destroyed objects, which often go unnoticed.", "anchors": ["FilePool/src/lib/FileManager.cpp: closeAll 75-88", "FilePool/src/lib/LRUFileManager.cpp: ~LRUFileManager 35-37", "FilePool/src/lib/FileHandler.cpp: close 37-45"]}
{"id": "C115", "title": "hasHandler tells whether the path has a handler", "statement": "FileManager::hasHandler(path) is true exactly if a handler for the path is alive.", "quantifier": "all interleavings of requests for handlers, releases and deleters", "why_tests_cant": "The deviations are short-lived and need a particular interleaving of two threads.", "anchors": ["FilePool/src/lib/FileManager.cpp: hasHandler 119-123, getFileHandler 91-117"]}
{"id": "C116", "title": "Ids of configuration managers are unique", "statement": "The ids that getUniqueManagerId returns in one run of a program are all different.", "quantifier": "all behaviours of the clock, any number of calls, from one or two threads", "why_tests_cant": "The clock of a test does not go back; two threads meet in the same microsecond only by chance.", "anchors": ["Configuration/src/lib/Utils.cpp: getUniqueManagerId 30-40"]}
{"id": "C117", "title": "There is one configuration manager per id", "statement": "Two calls of ConfigManager::getInstance return the same manager exactly if their ids are equal, whatever other calls are made; a call makes at most one manager and keeps the others.", "quantifier": "all sequences of calls and ids", "why_tests_cant": "Sequences are unbounded.", "anchors": ["Configuration/src/lib/ConfigManager.cpp: getInstance 34-41"]}
{"id": "C118", "title": "A provider gives access to exactly the dataset files below its root", "statement": "A FileSystemProvider of a directory can be made; it lists one qualified name per dataset file below the root, made of the directories between root and file and of the name that the parser gives, in the order of the files; each listed name leads to the points and parameters of its own file, every other name to none.", "quantifier": "all directory trees, all contents of the files, all root paths (with any number of slashes at the end), all names and keywords asked for", "why_tests_cant": "Trees, texts and names are unbounded; tests use one directory.", "anchors": ["XYDataset/src/lib/FileSystemProvider.cpp: FileSystemProvider, getDataset, getParameter", "XYDataset/src/lib/AsciiParser.cpp"]}
{"id": "C119", "title": "The initial weights of a map are successive draws of the initialisation function", "statement": "A map has as weights the successive values of its initialisation function, cell by cell; values of uniformRandom lie within its bounds, zero gives zeros; each further map made from the same random function continues with new values.", "quantifier": "all sizes and dimensions, all engines, all bounds, all sequences of makings of functions and maps", "why_tests_cant": "Random values of one run say nothing about the order in which they are used or about all engines; tests build one map.", "anchors": ["SOM/SOM/_impl/SOM.icpp: SOM(x, y, init_func)", "SOM/src/lib/InitFunc.cpp: zero, normalDistribution, uniformRandom"]}
{"id": "C120", "title": "Histograms of floating point values are right up to rounding", "statement": "For values of a binary floating point type a histogram with Sqrt or Scott bins is always made. Each value is counted in a bin whose edges contain it up to two relative rounding errors of its offset, the largest value is counted in the last bin, and the weight that is counted nowhere belongs to values less than the largest one by at most four relative rounding errors of the range. Without weights, a bin of the default count type float holds the number of its values.", "quantifier": "For all non-empty data, all precisions p >= 1, all numbers of bins up to 2^p, all weights.", "why_tests_cant": "Only values within an ulp of the largest one are affected, or more than sixteen million entries in a bin; sampled data do not reach either.", "anchors": ["Histogram/Histogram/Binning/Sqrt.h", "Histogram/Histogram/Binning/Scott.h", "Histogram/Histogram/Histogram.h"]}
{"id": "C121", "title": "Cumulatives of doubles are in order and can always be searched", "statement": "In floating point arithmetic: fromPdf of densities that are not negative gives non-negative values in order, each within i+1 relative rounding errors of the exact sum; normalize gives values in order between 0 and 1, the last one exactly 1; findValue finds a sample for every ratio in [0,1] and never reads past the end; findCenteredInterval gives an interval for every rate in ]0,1]; findMinInterval gives two samples for which at least the rounded part of the total is counted, or the first and last one, and no two samples that count as much are closer. Normalising changes no result of findValue.", "quantifier": "For all samples, ratios and rates, and every rounding that is monotone, symmetric and idempotent (double and float included).", "why_tests_cant": "The cases are those where a rounding error moves a bound past a sample; random samples hit them rarely.", "anchors": ["MathUtils/src/lib/PDF/Cumulative.cpp"]}
{"id": "C122", "title": "Inverse cumulatives of doubles stay within the knots", "statement": "In floating point arithmetic: for a discrete density every p in [0,1] gives one of the knots, the first one whose rounded cumulative reaches p. For a continuous density the constructor succeeds, p=0 gives the first knot, no element past the end is read, and for every p in [0,1] the result lies between the first and the last knot, up to the tolerance of the code.", "quantifier": "For all sorted knots, non-negative densities and p in [0,1], and every rounding that is monotone, symmetric and idempotent (double included).", "why_tests_cant": "The failures need knots that are close together relative to their size; tests use knots of the order of one.", "anchors": ["MathUtils/MathUtils/helpers/_impl/InverseCumulative.icpp", "MathUtils/src/lib/helpers/Solvers.cpp"]}
{"id": "C123", "title": "Linear interpolation of doubles", "statement": "In floating point arithmetic the function of linear interpolation reproduces the data, rises between rising data and falls between falling ones, stays within the range of the data, differs from the straight line through the neighbouring points by a few rounding errors of the terms only, is zero outside unless it extrapolates, and agrees with simple_interpolation.", "quantifier": "For all increasing abscissae, all ordinates and all arguments, with and without extrapolation; every rounding that is monotone, symmetric and idempotent, and the error for every number of bits of at least 3 (double included).", "why_tests_cant": "Tests compare with a tolerance at a few arguments; the deviations are of the order of the last bit for small abscissae and grow with the ratio of abscissa and distance.", "anchors": ["MathUtils/src/lib/interpolation/linear.cpp", "MathUtils/src/lib/interpolation/interpolation.cpp", "MathUtils/src/lib/function/Polynomial.cpp"]}
{"id": "C124", "title": "Self organising maps in floating point arithmetic", "statement": "In floating point arithmetic the best matching unit of an object has the least distance of all cells up to a few relative rounding errors, with and without uncertainties. Training never moves a weight away from the object, never beyond it, and keeps all weights in the range of the initial weights and the objects.", "quantifier": "For all maps with cells, all objects, all uncertainties that are not zero, all neighbourhood and learning functions with values in [0, 1], any number of iterations and any order of the objects; every number of bits (double included) and every square root with one rounding error.", "why_tests_cant": "Tests train one small map; errors of the last bit decide between cells that are almost equally near, and weights pass the object only for particular values.", "anchors": ["SOM/SOM/Distance.h", "SOM/SOM/_impl/SOM.icpp", "SOM/SOM/SOMTrainer.h"]}
{"id": "C125", "title": "The thread pool makes progress", "statement": "If the tasks end and every thread gets to move again and again, the destructor comes to its end, block() returns or throws, and every task that was submitted is executed some time, however many tasks are submitted after it.", "quantifier": "For all numbers of workers, all tasks, all infinite fair schedules and all moments at which block() or the destructor is called.", "why_tests_cant": "A test sees one schedule and can only wait for a limited time; that something happens in all infinite executions is not observable.", "anchors": ["AlexandriaKernel/src/lib/ThreadPool.cpp", "AlexandriaKernel/AlexandriaKernel/ThreadPool.h"]}
{"id": "C126", "title": "Tasks that use their pool", "statement": "Tasks may submit tasks: these are handed out in the order of submission and once only, block() waits for them too, and a pool without workers executes them like any other.", "quantifier": "For all numbers of workers, all tasks and all interleavings of workers, client and submissions by running tasks.", "why_tests_cant": "Tests submit from the outside only; the interleaving in which block() misses a task needs a worker that wakes between two looks at flags.", "anchors": ["AlexandriaKernel/src/lib/ThreadPool.cpp", "AlexandriaKernel/AlexandriaKernel/ThreadPool.h"]}
{"id": "C127", "title": "Accessors of several threads", "statement": "Whatever the interleaving of requests and releases in several threads, two accessors never share a stream, a write accessor is the only accessor of its file, the manager knows the stream of every accessor, and when no request is under way every file it counts is idle in exactly one handler, in the order of use once, and no lock is held.", "quantifier": "For all numbers of requests, files and modes, all limits and all interleavings of the sections between lock operations, with evictions, mode changes, and failures to open.", "why_tests_cant": "Tests run one thread or a few fixed schedules; whether a stream is handed out twice depends on where threads are interrupted.", "anchors": ["FilePool/FilePool/_impl/FileHandler.icpp", "FilePool/FilePool/_impl/FileManager.icpp", "FilePool/FilePool/_impl/FileAccessor.icpp", "FilePool/src/lib/FileHandler.cpp", "FilePool/src/lib/LRUFileManager.cpp"]}
{"id": "C128", "title": "Eviction with several threads", "statement": "Requests of several threads for accessors never come to undefined behaviour and never wait for each other for ever.", "quantifier": "For all numbers of requests, files and modes, all positive limits and all interleavings of the sections between lock operations.", "why_tests_cant": "The failing schedules need a thread to be interrupted at one place while others run; tests do not control that.", "anchors": ["FilePool/src/lib/LRUFileManager.cpp", "FilePool/src/lib/FileHandler.cpp", "FilePool/FilePool/_impl/FileHandler.icpp"]}
{"id": "C129", "title": "closeAll while other threads use the pool", "statement": "A call of FileManager::closeAll beside requests of other threads for accessors is never undefined, closes no stream that an accessor has, takes part in no deadlock, and when it is not disturbed it closes every idle stream and returns.", "quantifier": "For all numbers of requests, files and modes within the limit of open files, any number of calls of closeAll, and all interleavings of the sections between lock operations.", "why_tests_cant": "The failing schedule closes a stream between the collection of the pointers and their use; tests do not control where threads are interrupted.", "anchors": ["FilePool/src/lib/FileManager.cpp", "FilePool/src/lib/FileHandler.cpp", "FilePool/FilePool/_impl/FileManager.icpp"]}
{"id": "C130", "title": "Polynomials in double precision", "statement": "In floating point arithmetic a Polynomial with n coefficients returns its value up to a relative factor (1+u)^(n+1)-1 of the sum of the absolute values of its terms (u the unit roundoff), and the same holds, with bounds of the same form, for the derivative, the definite integral and the product of two polynomials; with whole coefficients and argument whose terms fit the mantissa the value is exact.", "quantifier": "For all coefficient lists and arguments, for every rounding with relative error at most u (no overflow or underflow); the exact case for every mantissa length.", "why_tests_cant": "The worst rounding errors are reached on rare arguments; a test compares a handful of values with a tolerance.", "anchors": ["MathUtils/src/lib/function/Polynomial.cpp", "MathUtils/src/lib/function/multiplication.cpp", "MathUtils/MathUtils/function/Differentiable.h"]}
{"id": "C131", "title": "Quadratic equations in double precision", "statement": "solveSquare in floating point arithmetic returns two numbers, in order, whenever the equation has a real solution; they solve the equation up to the rounding of its terms and approximate the solutions; a linear equation is solved up to two roundings and an equation without unknown is refused.", "quantifier": "For all coefficients and every rounding with relative error at most u; the violations for doubles.", "why_tests_cant": "Cancellation in the discriminant happens for a vanishing part of the coefficients, such as equations with a double solution.", "anchors": ["MathUtils/src/lib/helpers/Solvers.cpp", "MathUtils/MathUtils/helpers/Solvers.h"]}
{"id": "C132", "title": "Programs over n-dimensional arrays", "statement": "A program that makes arrays, with or without names of attributes, shares, assigns, slices from either side, reshapes, copies and concatenates them, reads and writes elements through any of them by coordinates or by name, iterates and compares, sees exactly what it would see if every array were a view of a function from coordinates to elements: writes are visible in all arrays that share the element and in no other, rows that are concatenated to an array leave the arrays that share its elements as they are, wrong indices, names and shapes throw and change nothing, and nothing is undefined.", "quantifier": "For every element type, every finite program and every contents.", "why_tests_cant": "Aliasing between slices of slices and reshaped arrays depends on the whole history; the histories cannot be enumerated.", "anchors": ["NdArray/NdArray/_impl/NdArray.icpp", "NdArray/NdArray/NdArray.h"]}
{"id": "C133", "title": "Sums and integrals along an axis in floating point arithmetic", "statement": "sum and trapz of an array of floating point numbers along an axis of n values differ from the exact sums by at most n, respectively n+3, roundings of the terms; sums of numbers that are not negative are not less than any of them, and integrals of such numbers over ordered knots are not negative.", "quantifier": "For all shapes of rank at least 2 (and the total sum for any array), slices, axes, contents and knots, and every rounding with relative error at most u.", "why_tests_cant": "The error depends on all the values and on the order of the additions.", "anchors": ["NdArray/NdArray/_impl/Operations.icpp"]}
{"id": "C134", "title": "Simpson's rule in floating point arithmetic", "statement": "The direct evaluation of order m and the refinement of a previous value evaluate the function at nodes that differ from the equidistant ones by at most four roundings, the direct rule also exactly at the ends, and their value differs from the rule for these samples by at most 2^m + 1, respectively 2^m / 2 + 5, roundings of the weighted samples.", "quantifier": "For all functions, intervals and orders from 3 (4) to 30, and every rounding with relative error at most u.", "why_tests_cant": "The error depends on all samples; up to 2^30 of them.", "anchors": ["MathUtils/src/lib/numericalIntegration/SimpsonsRule.cpp"]}
{"id": "C135", "title": "Numerical integration approximates the integral", "statement": "The value of the adaptive integration with Simpson's rule differs from the integral of the function by at most the given relative precision. (In general it does not.) The rule is of fourth order: for a function whose fourth derivative is at most M the error of N steps is at most M (b-a) h^4 / 12 with h = (b-a)/N; for a monotone function at most 5/8 h |f(b)-f(a)|; the value lies between the bounds of the function times the length of the interval; for positive monotone functions the integration ends with a value.", "quantifier": "For all functions with the named property, intervals, orders from 3 to 30 and precisions.", "why_tests_cant": "The error depends on the function between the samples, which no test sees.", "anchors": ["MathUtils/src/lib/numericalIntegration/SimpsonsRule.cpp", "MathUtils/MathUtils/numericalIntegration/_impl/AdaptativeIntegration.icpp"]}
{"id": "C136", "title": "Computed cosmological distances are close to the exact ones", "statement": "The comoving distance as computed with the adaptive Simpson integration is between the one of the Hubble law and this divided by the Hubble parameter; differs from the exact one by at most 5/128 of the one of the Hubble law, and in flat and open models by at most 1275/12 (z/16)^4 of it; it has a value as long as the Hubble parameter is not too large for the precision, with the default precision at least up to redshift 13, and then so have the luminosity distance and the distance modulus in flat models.", "quantifier": "For all redshifts, density parameters (matter not negative, dark energy at most critical), Hubble constants, precisions and comparisons with 0.", "why_tests_cant": "Parameters and redshifts are real numbers; tests compare a few values to tables.", "anchors": ["PhysicsUtils/src/lib/CosmologicalDistances.cpp", "MathUtils/MathUtils/numericalIntegration/_impl/AdaptativeIntegration.icpp", "MathUtils/src/lib/numericalIntegration/SimpsonsRule.cpp"]}
{"id": "C137", "title": "Floating point numbers in ASCII tables", "statement": "The floating point numbers of a table are read back from an ASCII file as they were. (They are not: the writer uses six digits.) The text of a number is the decimal form of the nearest number with at most six digits; it is read back within 5.1 millionths of the number; exactly the floating point numbers nearest to numbers with at most six digits are read back unchanged. A table with any numbers is read back with the same columns, rows and other cells and with near numbers, and writing it again gives the same text.", "quantifier": "For all numbers, floating point types of at least 24 bits, and all tables that meet the conditions of C43 on names and strings.", "why_tests_cant": "The digits lost depend on the decimal expansion of the binary number; tests use short numbers that survive.", "anchors": ["Table/src/lib/AsciiWriterHelper.h", "Table/src/lib/AsciiReaderHelper.cpp", "Table/src/lib/AsciiWriter.cpp", "Table/src/lib/AsciiReader.cpp"]}
{"id": "C138", "title": "Options of the registered configurations", "statement": "Closing the registration returns every option that a registered configuration declares, exactly as often as it is declared and nothing else, grouped by the names the configurations give, every group once and in alphabetic order, the options of a group configuration by configuration. Whatever configurations of the library are registered, no two of the options have the same name.", "quantifier": "For all sets of registered configurations, all orders of their types, and all options declared, in particular those of the configurations of the library.", "why_tests_cant": "Which configurations are registered depends on the program, and their order on the compiler; tests register one or two of them.", "anchors": ["Configuration/src/lib/ConfigManager.cpp", "Configuration/src/lib/CatalogConfig.cpp", "Configuration/src/lib/PhotometricBandMappingConfig.cpp", "Configuration/src/lib/PhotometryCatalogConfig.cpp", "Configuration/src/lib/SpecZCatalogConfig.cpp"]}
{"id": "C139", "title": "Decimal numbers of dataset files", "statement": "The points of a dataset read from an ASCII file are the floating point numbers nearest to the decimal numbers in the file. Points given with at least seventeen digits are read exactly, behind any comments that are a plain header, and such a file is accepted as a dataset file; sixteen digits are not enough. Were tables written with seventeen digits (nine for float), they would be read back unchanged whatever their numbers.", "quantifier": "For all texts; for all lists of points of doubles, all comments that are a plain header; for all tables that meet the conditions of C43 on names and strings.", "why_tests_cant": "Whether a number survives depends on its digits; tests use short numbers.", "anchors": ["XYDataset/src/lib/AsciiParser.cpp", "Table/src/lib/AsciiReaderHelper.cpp", "Table/src/lib/AsciiWriterHelper.h"]}
{"id": "C140", "title": "Programs over grids", "statement": "A program that makes grids, fixes axes of them by index or value, moves them, reads and writes cells with at, operator() and loops over iterators, and asks for sizes and axes, sees what it would see if a grid were a function of coordinates and a slice that function with some coordinates fixed, whatever grids and slices share their cells and in whatever order the calls are made.", "quantifier": "For all programs (lists of calls) over any number of grids with any number of axes.", "why_tests_cant": "Slices share their cells with the grid and hold a copy of its axes; an error shows only after particular orders of slicing, writing, moving and iterating.", "anchors": ["GridContainer/GridContainer/_impl/GridContainer.icpp", "GridContainer/GridContainer/_impl/GridIterator.icpp", "GridContainer/GridContainer/_impl/GridIndexHelper.icpp", "GridContainer/GridContainer/_impl/GridConstructionHelper.h"]}
{"id": "C141", "title": "Statistics of histograms in floating point arithmetic", "statement": "getStats returns the mean, the median and the deviation of the counts inside the clip up to a small multiple of the rounding error, the assertion inside it holds, the mean of values in a single bin is the centre of the bin, and counts in two bins have a positive deviation.", "quantifier": "For all increasing edges, all whole counts, all clips and all precisions of the values and of the weights.", "why_tests_cant": "The errors depend on the number of bins, on the distance of the bins from zero and on counts beyond 16777216; tests use few values near zero.", "anchors": ["Histogram/Histogram/_impl/ComputationImpl.icpp", "Histogram/Histogram/Histogram.h"]}
{"id": "C142", "title": "Interpolations are close to the function that was tabulated", "statement": "If the ordinates are values of a function, the linear interpolation is off by at most half a step times the Lipschitz constant, by an eighth of the squared step times a bound of the second derivative, and lies above a convex function. The natural spline through given points is unique, depends linearly on the ordinates, is the straight line for points on a line, has the smallest integral of the squared second derivative among all twice continuously differentiable functions through the points, and is off by at most the root of h^3/48 times that integral.", "quantifier": "For all increasing abscissae (at least two), all functions with the stated smoothness, and all arguments between the first and the last abscissa (for straight lines and for sums of splines also where they are extrapolated).", "why_tests_cant": "The statement is about all functions that pass through the points and about every argument between them; a test evaluates some functions at some arguments.", "anchors": ["MathUtils/src/lib/interpolation/linear.cpp", "MathUtils/src/lib/interpolation/spline.cpp", "MathUtils/src/lib/interpolation/interpolation.cpp"]}
{"id": "C143", "title": "Interpolation on grids is close to the function that was tabulated", "statement": "If the array holds the values of a function at the nodes, the interpolation on the grid is off by at most the sum, over the axes, of the errors of linear interpolation along one axis; so by half the sum of Lipschitz constants times steps; functions that are affine in every continuous argument are reproduced; and no value lies outside the range of the array.", "quantifier": "For all numbers of axes (continuous and discrete, mixed), all strictly increasing knots, all arrays, all functions, and all arguments that are not outside the knots.", "why_tests_cant": "The error is bounded for every function and every point of every cell of grids with any number of axes; tests look at chosen points of one or two grids.", "anchors": ["MathUtils/MathUtils/interpolation/_impl/GridInterpolation.icpp", "MathUtils/MathUtils/interpolation/_impl/interpolation.icpp"]}
{"id": "C144", "title": "gridImport accepts nothing that gridExport does not write", "statement": "Whatever a stream holds, gridImport throws an exception or gives a grid with all its cells such that gridExport of that grid writes exactly what was taken from the stream; a stream that ends before the end of an exported grid is refused with an exception.", "quantifier": "For all streams of values, all numbers and types of axes and cells whose own loading accepts only what storing writes (plain types and qualified names do), and all places where a stream is cut.", "why_tests_cant": "A test can only feed a few broken streams; that no stream at all leads to a half-read grid is a statement about all of them.", "anchors": ["GridContainer/GridContainer/serialize.h", "GridContainer/GridContainer/serialization/GridContainer.h", "GridContainer/GridContainer/serialization/GridAxis.h", "GridContainer/GridContainer/serialization/tuple.h", "XYDataset/XYDataset/serialize.h"]}
{"id": "C145", "title": "gridFitsImport reads any FITS file without harm", "statement": "Whatever extensions a FITS file has, gridFitsImport either throws an exception, or the given extension is an image followed by tables with a column of knots; then the axes of the grid have as many knots as the tables have rows, and the cells are the pixels of the image in their order, which has the shape of the grid. Nothing outside of the image is read.", "quantifier": "For all files (lists of images and tables with any columns and data), all indices, all numbers and types of axes.", "why_tests_cant": "Tests import what was exported just before; files from elsewhere, or changed by a later export, can have any contents.", "anchors": ["GridContainer/GridContainer/_impl/FitsSerialize.icpp"]}
{"id": "C146", "title": "Cubic interpolation in doubles stays close to the spline", "statement": "For every table with increasing abscissae, interpolate with CUBIC_SPLINE in double precision succeeds, and the function returned differs from the natural cubic spline of exact arithmetic, and at the points given from the ordinates, by not more than rounding errors of the size of the ordinates.", "quantifier": "For all tables with two points or more, all arguments between the points, with and without extrapolation, and for every rounding with a small relative error.", "why_tests_cant": "Tests compare splines of a few points near zero with a tolerance; how the error depends on where the points are cannot be seen from them.", "anchors": ["MathUtils/src/lib/interpolation/spline.cpp", "MathUtils/src/lib/interpolation/interpolation.cpp", "MathUtils/src/lib/function/Polynomial.cpp"]}
{"id": "C147", "title": "Files written are npy files for numpy", "statement": "The file that writeNpy writes, and the file of a mapped array after createMmapNpy and after each resize, is an npy file as numpy defines it: magic string, version, length of the header, a header that is a Python dictionary of which descr gives kind and size of the elements or the names of the fields, shape gives the shape without the axis of the names, and as many bytes of data as elements of this type need.", "quantifier": "For all types of elements, shapes, names of attributes, views and contents.", "why_tests_cant": "The tests read the files with the library itself, which would not notice a header only the library understands; numpy is asked in the tests for a few shapes at most.", "anchors": ["NdArray/NdArray/io/_impl/NpyCommon.h", "NdArray/NdArray/io/Npy.h", "NdArray/NdArray/io/NpyMmap.h"]}
{"id": "C148", "title": "The text of an array tells its shape and elements", "statement": "operator<< writes an array or view as its dimensions in angle brackets, separated by commas, followed by its elements in row-major order, separated by commas; so the text tells shape and elements apart if the texts of the elements do and have no commas.", "quantifier": "For all arrays and views made by the operations, all contents and all ways to write an element.", "why_tests_cant": "Tests compare the output for one or two small arrays; that no two different arrays look the same is a statement about pairs of arrays of any shape.", "anchors": ["NdArray/NdArray/_impl/NdArray.icpp", "NdArray/NdArray/NdArray.h"]}
{"id": "C149", "title": "Interpolation on grids in floating point", "statement": "With operations rounded to p bits the function that InterpN or interpn builds returns, for every arguments for which the exact one does, a number that differs from the exact interpolation by at most the largest magnitude of an element times the product of (1 + 2^-p (3 + 36 kappa)) over the axes, less one, where kappa is the largest ratio of argument and knots to the distance of neighbouring knots. It returns the element at a node and stays within the range of the elements; constants are reproduced exactly, and outside without extrapolation the result is zero.", "quantifier": "For all numbers of axes, continuous and discrete axes, arrays, arguments, and precisions p of at least 3.", "why_tests_cant": "Tests compare a few values with a tolerance; how rounding errors multiply over the axes for all grids and arguments cannot be seen from them.", "anchors": ["MathUtils/MathUtils/interpolation/_impl/GridInterpolation.icpp", "MathUtils/MathUtils/interpolation/GridInterpolation.h", "MathUtils/src/lib/interpolation/interpolation.cpp"]}
{"id": "C150", "title": "Names, types and comments that are set before reading or writing", "statement": "fixColumnNames, fixColumnTypes and setCommentIndicator of a reader throw exactly if reading has begun, a name is empty, contains whitespace or is given twice, the numbers of names and types differ, or the indicator is empty; a call that throws changes nothing. Whatever calls were made, names and types that were fixed are those of the columns, and nothing in the header of the text can prevent this; the rest is taken from the header at the same place. A writer accepts a sequence of calls exactly if it sets indicator and descriptions first, then adds comments, then tables; the text is the one with the last indicator and the last choice.", "quantifier": "For all sequences of calls of AsciiReader, FitsReader (names) and AsciiWriter, all texts, columns and tables.", "why_tests_cant": "Tests make one wrong call each; they look neither at the reader after a call that throws, nor at long sequences of calls.", "anchors": ["Table/src/lib/AsciiReader.cpp:58-165", "Table/src/lib/FitsReader.cpp:58-110", "Table/src/lib/AsciiWriter.cpp:42-113", "Table/Table/AsciiReader.h:144-172"]}
{"id": "C151", "title": "Arrays and records saved by numpy", "statement": "A file that numpy.save wrote for an array of numbers, or of records whose fields are numbers of one type, is read by readNpy with its shape, its field names and its elements; every file in Fortran order, of big endian numbers, of another type or of mixed types is refused with an exception.", "quantifier": "For all element types, shapes without empty axes, field names, formats 1.0 and 2.0, paddings and data.", "why_tests_cant": "Tests read two small files; a parser that searches for keywords and applies a regular expression can go wrong for particular names, types and shapes.", "anchors": ["NdArray/NdArray/io/_impl/NpyCommon.h: NpyDtype 53-104, parseFieldValues 122-144, parseNpyDict 163-187, readNpyHeader 203-241", "NdArray/NdArray/io/_impl/NpyReader.icpp: readNpy 33-51"]}
{"id": "C152", "title": "Values computed on first use, and threads", "statement": "The const functions derivative and indefiniteIntegral of polynomials and hash of names (and so the comparison of names), which store their value at the first call, may be called by several threads for the same object: there is no data race, every call returns the right value and no call waits for another.", "quantifier": "For all numbers of threads, sequences of calls and copies in each, orders of execution, and contents of the stored members at the start.", "why_tests_cant": "A race shows in a test only if the accesses happen to overlap; the number of interleavings is exponential.", "anchors": ["MathUtils/src/lib/function/Polynomial.cpp: derivative 53-62, indefiniteIntegral 64-74", "XYDataset/src/lib/QualifiedName.cpp: hash 85-91, operator< 93-101, operator== 103-111"]}
{"id": "C153", "title": "One handler for each file, whatever its name", "statement": "Two paths that name files (existing, or to be created when they are opened) get the same file handler from the manager exactly if they name the same file, through dots, double dots, symbolic links and relative or absolute paths; and the key under which a path is known does not change when files and directories are created.", "quantifier": "For all trees of directories, files and symbolic links, current directories, and pairs of paths.", "why_tests_cant": "Tests use one file with a plain name; the combinations of links, dots and missing parts of a path are unbounded.", "anchors": ["FilePool/src/lib/FileManager.cpp: weakly_canonical 29-53, getFileHandler 91-117"]}
{"id": "C154", "title": "What NaN does to functions, histograms, cumulatives, maps and trees", "statement": "A NaN given where a number is expected is refused, leads to NaN, or is passed over: it is never undefined behaviour (evaluation and integration of piecewise functions, findValue and findMinInterval of Cumulative, the binning strategies), it is not counted by a histogram, and it changes neither a self-organising map nor the order that the k-d tree relies on; points with NaN are never found by the tree.", "quantifier": "For all polynomials, knots and pieces, edges, data, densities, maps, neighbourhoods, training sequences and trees, with NaN at any place.", "why_tests_cant": "Every comparison with NaN is false, so that it takes a way through each function that no test with numbers takes; no test of the repository uses NaN here.", "anchors": ["MathUtils/src/lib/function/Piecewise.cpp: operator() 71-85, integrate 96-127", "MathUtils/src/lib/PDF/Cumulative.cpp: findValue 104-138, findMinInterval 140-174", "Histogram/Histogram/Binning/EdgeVector.h: getBinIndex 60-67", "Histogram/Histogram/Binning/Sqrt.h: 54-58", "Histogram/Histogram/Binning/Scott.h: 85-89", "SOM/SOM/_impl/SOM.icpp: findBMU_impl 89-102", "SOM/SOM/SOMTrainer.h: train 41-84", "KdTree/KdTree/_impl/KdTree.icpp: 33-46, 57-59, 86-102"]}
{"id": "C155", "title": "Radius queries of the k-d tree for all doubles", "statement": "For every finite data, every centre (finite, infinite or NaN) and every radius that is not negative (finite, infinite or NaN), a query of the k-d tree finds exactly what a linear scan with the same double arithmetic finds, whatever overflows or underflows; a point is found at its own place with every positive radius.", "quantifier": "For all dimensions, leaf sizes, sorting algorithms, lists of objects with finite coordinates, centres and radii, and every monotone symmetric rounding with a greatest finite number; in particular for the 53 bit binary rounding with subnormal numbers.", "why_tests_cant": "Pruning with a centre plus a radius that overflows, and the squares of subnormal distances, are not reached by tests with ordinary numbers.", "anchors": ["KdTree/KdTree/_impl/KdTree.icpp: Leaf::findPointsWithinRadius 33-46, Split 56-84 (split value 61-69), Split::findPointsWithinRadius 86-102, KdTree 112-120"]}
{"id": "C156", "title": "What overflow and underflow do to cumulatives, histograms, interpolation and maps", "statement": "For finite doubles, whatever overflows or underflows on the way: the minimal interval of a cumulative is in order and does not change when the cumulative is normalised; every value of a histogram has a defined bin; the linear interpolation is finite at its points; the best matching unit of an input that is the weights of a cell is that cell.", "quantifier": "For all lists of samples, densities and ratios, all data and numbers of bins, all pairs of points, all maps and inputs, and every monotone symmetric rounding with a greatest finite number; in particular the 53 bit binary rounding with subnormal numbers.", "why_tests_cant": "Sums beyond 2^1024, ranges of twice the greatest number and differences whose quotient by the number of bins is rounded to zero are not in any test data.", "anchors": ["MathUtils/src/lib/PDF/Cumulative.cpp: 78-174 (fromPdf, normalizeCumulative, findValue, findMinInterval)", "Histogram/Histogram/Binning/Sqrt.h: 45-58", "MathUtils/src/lib/interpolation/linear.cpp: 36-40", "SOM/SOM/Distance.h: 56-62, SOM/SOM/_impl/SOM.icpp: 89-102"]}
{"id": "C157", "title": "Variables of type Histogram are values", "statement": "In a program that constructs, copies, moves and clips histograms, every variable behaves as if it held a histogram of its own: clipping a copy never changes the original or another copy, although the copies share one vector of counts; a clip that throws leaves the histogram as it was; the only undefined uses are those of a variable that was moved from.", "quantifier": "For all programs (lists of statements of any length on any number of variables), all data and weights, all binnings whose search does not throw (in particular those of the library).", "why_tests_cant": "The sharing of the counts between copies is only visible for particular sequences of copies, moves and clips.", "anchors": ["Histogram/Histogram/Histogram.h: constructors 155-191, copies and moves 196-213, clip 270-272, ComputationInterface 315-345, clone 351-353", "Histogram/Histogram/_impl/ComputationImpl.icpp: clip 6-18, computeBins 98-119"]}
{"id": "C158", "title": "Readers and writers that share a stream", "statement": "ASCII readers constructed for the same stream take their rows from one list of lines: whichever readers are asked for how many rows, every line becomes a row of exactly one table, in order; a reader constructed for a stream of which a part was read behaves as a reader of the rest. Tables written to one stream by successive writers come back unchanged, with their own columns, from successive readers that are asked for as many rows as each table has. A new reader for the stream of another one reads what that one would have read.", "quantifier": "For all texts shorter than 2^31 bytes, all places in the stream, all numbers of readers, all interleavings of calls and all lists of tables that a single writer writes readably.", "why_tests_cant": "The readers rewind and peek in the stream they share; whether a line is lost or read twice depends on the interleaving, on the place and on the header of what is left.", "anchors": ["Table/src/lib/AsciiReader.cpp: constructors 51-56, getInfo, getComment, readImpl, skip, hasMoreRows, rowsLeft 58-260", "Table/src/lib/AsciiWriter.cpp: constructors 35-40, addComment, init, append", "AlexandriaKernel/AlexandriaKernel/_impl/InstOrRefHolder.icpp: 31-70"]}
{"id": "C159", "title": "Which texts make the ASCII reader undefined", "statement": "No text makes a call of AsciiReader undefined: every call answers or throws. (Violated: a description of a column whose unit is an opening parenthesis alone; it is the only way.)", "quantifier": "For all texts shorter than 2^31 bytes, all comment strings, names and types set, all places in the stream without flags, and all calls.", "why_tests_cant": "The harm is done by one comment of a form nobody writes on purpose, erase() of the last character of an empty string; tests read well-formed headers.", "anchors": ["Table/src/lib/AsciiReaderHelper.cpp: autoDetectColumnDescriptions 107-169 (141-147)", "Table/src/lib/AsciiReader.cpp: readColumnInfo 116-166, readImpl 196-232, skip 234-248", "Table/src/lib/AsciiReaderHelper.cpp: convertToCellType", "Table/src/lib/Row.cpp: constructor"]}
{"id": "C160", "title": "Reading any file as npy", "statement": "Every sequence of bytes read as an npy file, or mapped into memory as one, gives an array or an exception. What it gives is determined by a specification that finds the entries of the dictionary by their names, in any order and with anything around them: the type between quotes or in the fields up to a bracket, the shape up to a parenthesis, the order of the axes; then as many elements as these say, with zeros for what is missing. (Violated: reading is undefined for exactly the files of C160_undefined, among them those that end before the dictionary.)", "quantifier": "For all sequences of bytes, all types of elements, all heaps of arrays; for mappings all sizes and modes that can be written.", "why_tests_cant": "Malformed files are not enumerable; which bytes make the parser look outside of a string or use a variable that was not set depends on positions found by searching for words that may not occur.", "anchors": ["NdArray/NdArray/io/_impl/NpyCommon.h: parseSingleValue, parseFieldValues 109-150, parseNpyDict 152-194, readNpyHeader 200-248", "NdArray/NdArray/io/_impl/NpyReader.icpp: readNpy 30-58", "NdArray/NdArray/io/_impl/NpyMmap.icpp: mmapNpy 32-58"]}
{"id": "C161", "title": "Functions of data sets and of the curves of a directory", "statement": "interpolate, Cumulative, Cumulative::fromPdf, extractNHighestModes and extractNBigestModes treat a data set made from two vectors exactly as the two vectors. A curve in a text file below the root of a FileSystemProvider, asked for by its name and interpolated (linearly or by a spline), has at the first number of every data line the second number of this line, and is zero outside of its points unless it is extrapolated.", "quantifier": "For all vectors, all disks, roots, files and texts with increasing abscissae, both types of interpolation, with and without extrapolation.", "why_tests_cant": "The chain of directory listing, names, header detection, number parsing, copying and interpolation is only tested link by link with a few files; the statement is for every file and every line of it.", "anchors": ["MathUtils/src/lib/interpolation/interpolation.cpp:87", "MathUtils/src/lib/PDF/Cumulative.cpp:57", "MathUtils/src/lib/PDF/PdfModeExtraction.cpp:36", "XYDataset/src/lib/FileSystemProvider.cpp:202", "XYDataset/src/lib/AsciiParser.cpp:77"]}
{"id": "C162", "title": "The band mapping of a configuration is that of the file it is initialised from", "statement": "PhotometricBandMappingConfig: the base directory can be set before the object is initialised and not afterwards; the mapping, the thresholds and the conversion flags can be taken afterwards and not before; they are those of the file found from the base directory, without the excluded filters, whatever calls came before and come later. PhotometryCatalogConfig: the flags can be taken once it is initialised, and are those of its options.", "quantifier": "For all sequences of calls by the program and by the manager (setting the base directory, pre-initialisation, initialisation with any file system, file, list of excluded filters and options, post-initialisation), including those that throw.", "why_tests_cant": "The members are appended to and never cleared: a program that catches the exception for a wrong excluded filter and tries again, or that initialises the manager twice, has every filter more than once. A test initialises an object once.", "anchors": ["Configuration/src/lib/PhotometricBandMappingConfig.cpp:114-187", "Configuration/src/lib/PhotometryCatalogConfig.cpp:61-109", "Configuration/src/lib/ConfigManager.cpp:139-170"]}
{"id": "C163", "title": "Asking a thread pool how far it is", "statement": "While workers, the client and tasks go on, another thread may call queued(), running(), activeThreads() and checkForException(). running() returns at least the number of workers that have a task when it returns. activeThreads() returns a number between those active when it returns and when it was called. checkForException() says true exactly if a finished task has thrown. If queued() returned 0 and a later call of running() returns 0, and nothing has been submitted since, every task is finished; the same holds if tasks have submitted tasks since, provided no exception is stored and the pool is not being destroyed.", "quantifier": "for every number of workers, every tasks, every interleaving of the threads", "why_tests_cant": "The flags are read one after the other while the workers change them; the bad interleavings are rare and cannot be provoked.", "anchors": ["AlexandriaKernel/src/lib/ThreadPool.cpp: queued, running, activeThreads, checkForException"]}
{"id": "C164", "title": "Training draws the cells of a map towards the objects", "statement": "Processing an object multiplies its distance to every cell by |1 - n*l|, n being the value of the neighbourhood function at the cell and l the learning factor. With factors between 0 and 1, the neighbourhood largest at the best matching unit as for the shipped functions, the distance findBMU reports for the object becomes 1 - n*l times what it was, and the former best matching unit has that distance. Training on a single object multiplies the reported distance by the product of these factors. With the linear restraint, the first iteration puts the last object itself in every cell where the neighbourhood is one, whatever the map held before.", "quantifier": "for all maps, objects, numbers of iterations, neighbourhood functions and learning factors", "why_tests_cant": "Tests train a map with random numbers and look at a few cells; that training brings the map closer to every object it processes is a statement on all maps and objects.", "anchors": ["SOM/SOM/SOMTrainer.h:41-84", "SOM/SOM/_impl/SOM.icpp:89-111", "SOM/src/lib/LearningRestraintFunc.cpp:26-30", "SOM/src/lib/NeihbourhoodFunc.cpp:26-71"]}
{"id": "C165", "title": "Configuration managers and threads", "statement": "Threads may call ConfigManager::getInstance at any time: there is no data race, calls with the same id give the same manager in all threads, and no manager that a thread has got is destroyed.", "quantifier": "For all managers there are at the start, numbers of threads, sequences of ids in each, and orders of execution.", "why_tests_cant": "The two steps between which another thread has to come are a few instructions apart; the number of interleavings is exponential.", "anchors": ["Configuration/src/lib/ConfigManager.cpp: getInstance 34-41"]}
{"id": "C166", "title": "Adaptive integration and comoving distances in floating point arithmetic", "statement": "The value of the adaptive integration is the rule of the last order up to an explicit bound on the accumulated rounding errors of all orders, and the last two orders agree within the precision up to the roundings of the comparison; it ends at the latest when two orders agree so well that the rounding errors do not matter. On doubles, in flat and open models up to redshift 13, the comoving distance has a value with the default precision, and differs from the exact one by at most 1275/12 (z/16)^4 + 2e-7 of the one of the Hubble law.", "quantifier": "For all functions, intervals, precisions and orders, every rounding with small relative error, and all redshifts up to 13, densities and Hubble constants.", "why_tests_cant": "Up to 2^30 rounded samples contribute to a value; the error depends on all of them and on the orders before.", "anchors": ["MathUtils/MathUtils/numericalIntegration/_impl/AdaptativeIntegration.icpp", "MathUtils/src/lib/numericalIntegration/SimpsonsRule.cpp", "PhysicsUtils/src/lib/CosmologicalDistances.cpp: hubbleDistance, hubbleParameter, comovingDistance", "PhysicsUtils/src/lib/CosmologicalParameters.cpp"]}
{"id": "C167", "title": "A request for a file takes an idle descriptor if there is one", "statement": "A request that need not wait and for which its handler has an idle descriptor of the same mode and type of stream is granted, even if the limit of the pool is reached and the system can open no file. It gets the idle descriptor with the least address, and no file is opened or closed. Otherwise a request that is granted gets a newly opened file.", "quantifier": "For every history of calls, every handler, mode, type of stream and limit.", "why_tests_cant": "Which descriptors are idle depends on the order in which all accessors before were released and on which files the pool closed meanwhile.", "anchors": ["FilePool/FilePool/_impl/FileHandler.icpp", "FilePool/FilePool/FileHandler.h: m_available_fd"]}
{"id": "C168", "title": "Which texts are values of which type", "statement": "AsciiReader converts a text to a cell exactly if it is: for truth values one of true, t, yes, y, 1, false, f, no, n, 0; for integers a numeral with an optional sign and no spaces whose number is in the range of the type; for strings any text, which is itself the value; for vectors texts of elements separated by commas, where empty ones do not count; for arrays sizes in angle brackets and then the elements, as many as the product of the sizes modulo 2^32. Every other text is refused with an exception, and no text has two values.", "quantifier": "For every text, every type of column and every value.", "why_tests_cant": "There are infinitely many texts that are nearly of the right form.", "anchors": ["Table/src/lib/AsciiReaderHelper.cpp: convertToCellType, convertStringToVector, convertStringToNdArray"]}
{"id": "C169", "title": "Transverse distance, luminosity distance, distance modulus and volume element on doubles", "statement": "In flat and open cosmological models, up to redshift 13 and with the default precision, transverseComovingDistance, luminousDistance, distanceModulus and dimensionlessComovingVolumeElement have a value on doubles. The transverse distance differs from the exact one by at most 2 (1 + z) times the error of the comoving distance, which is the one of the integration (at most four percent, and of the fourth order) and 3e-7 of the distance of the Hubble law; also where the curvature is rounded to the other sign or is taken for 0. The luminosity distance has 1 + z times this error. Where the relative error is at most one half, the distance modulus differs from the exact one by at most five times the relative error and roundings in the last digits, and the relative error of the volume element is at most five halves of the one of the distances and 1e-9.", "quantifier": "For all densities that are not negative and add up to at most 1, all Hubble constants, all redshifts up to 13 that are not taken for 0, all roundings of doubles without overflow and all C libraries whose sinh, sin and log10 are right up to four units in the last place.", "why_tests_cant": "Near flat models the radius of curvature is arbitrarily large and rounding decides which of three formulas is used; no table of models shows that they agree there.", "anchors": ["PhysicsUtils/src/lib/CosmologicalDistances.cpp: transverseComovingDistance, luminousDistance, distanceModulus, dimensionlessComovingVolumeElement"]}
{"id": "C170", "title": "The corner below a point of a grid, and equality of axes", "statement": "infimum of a grid gives for every axis the position of the greatest knot that is not greater than the coordinate, or 0 if all knots are greater, and at() of these positions always finds a cell; the same holds for slices. Two axes are equal exactly if they have the same knots in the same order, whatever their names; != is the opposite, and the comparison never reads beyond the knots.", "quantifier": "For all grids of any number of axes, with increasing knots, all slices made by any sequence of fixAxisByIndex and fixAxisByValue, and all coordinates; for all pairs of axes and all comparisons of knots.", "why_tests_cant": "Tests ask for some points of a whole grid; the indices are wrong only for slices and only above the first knots of the fixed axes.", "anchors": ["GridContainer/GridContainer/_impl/GridContainer.icpp: infimum, InfimumHelper, at", "GridContainer/GridContainer/_impl/GridAxis.icpp: operator==, operator!=, infimum"]}
{"id": "C171", "title": "Several grids in one archive", "statement": "Grids that are stored one after another in the same boost archive all come back from it with their axes and cells; a grid that is stored twice comes back twice, and one grid per archive, as gridExport stores it, always comes back.", "quantifier": "For all sequences of grids of one type with knots and cells stored by value, any of them repeated, and all addresses of the local objects of each call.", "why_tests_cant": "Whether the loading reads a deleted object depends on where the compiler puts a local variable in two calls; a test that stores one grid per archive never shows it.", "anchors": ["GridContainer/GridContainer/serialization/GridContainer.h: save_construct_data, load_construct_data", "GridContainer/GridContainer/serialization/tuple.h: Save, Load", "GridContainer/GridContainer/serialize.h: gridExport, gridImport"]}
{"id": "C172", "title": "The sources of a catalogue give back the rows of its table", "statement": "With a TableRowAttributeFromRow among the handlers, the rows that the sources of a catalogue return are the rows of the table in their order, and find(id) gives the source with exactly the row that has this id.", "quantifier": "For all tables, id columns, and lists of handlers in which handlers of other attributes come before the one of the row and any come after it.", "why_tests_cant": "The row is one of many attributes that are looked up by type; a test uses one list of handlers and one table.", "anchors": ["SourceCatalog/src/lib/TableRowAttributeFromRow.cpp", "SourceCatalog/src/lib/TableRowAttribute.cpp", "SourceCatalog/src/lib/CatalogFromTable.cpp: createCatalog", "SourceCatalog/SourceCatalog/_impl/Source.icpp: getAttribute"]}
{"id": "C173", "title": "Extraction of modes on floating point numbers", "statement": "On doubles, extractNHighestModes gives exactly n modes and extractNBigestModes ends after at most 3n+2 extractions with at least n modes, without reading outside of the vectors, whatever the numbers are (also NaN and infinities); each mode describes a peak of what the ones before leave. For finite densities that are not negative the tops are highest samples, the heights do not increase, no area is negative, the interpolated maxima stay between the first and the last abscissa, and areas and first moments are right up to the roundings of their terms. A NaN in the samples makes extractNBigestModes do all 3n+2 extractions.", "quantifier": "For all samplings with at least three samples, merge ratios and n, in any arithmetic; the second part for every monotone rounding; the NaN part for all doubles.", "why_tests_cant": "The loop ends by comparisons of accumulated rounded areas; a test has few densities and no NaN.", "anchors": ["MathUtils/src/lib/PDF/PdfModeExtraction.cpp: extractNHighestModes, extractNBigestModes, catchPeak, avgArea, getInterpolationAround"]}
{"id": "C174", "title": "The u-matrix of a map with double weights says what the computed distances say", "statement": "For a map with at least two cells and distances computed in double: the MIN (MAX) value of a cell is one of the distances to the cells that touch it, and no distance is less (greater); it is NaN exactly if the distance to the first neighbour (smallest x, then smallest y) is NaN, while a NaN at another neighbour is passed over. With L2 the MEAN value is NaN exactly if the cell and a neighbour have in some dimension weights whose difference is not a number, and is never negative. L2 is symmetric. The MEAN value differs from the exact mean of the distances by at most nine relative rounding errors and is between MIN and MAX up to these (not exactly). For a map with a single cell MEAN is NaN.", "quantifier": "all maps, cells, weights (NaN and infinities included), distance functions, roundings and numbers of bits", "why_tests_cant": "A NaN only shows when it is at the first neighbour, and the mean leaves the range of the distances only for certain values; tests use small exact numbers", "anchors": ["SOM/SOM/_impl/UMatrix.icpp:33-83", "SOM/SOM/Distance.h:56-62"]}
{"id": "C175", "title": "The factors of a training in double precision", "statement": "However the operations are rounded: the linear restraint is 1 in the first iteration, between 0 and 1 in all of them and does not increase, and with p bits it is never 0 before the last iteration is over; the exponential restraint is the rate in the first iteration, between 0 and the rate in all of them and does not increase; the disk gives 0 or 1, and a cell that has left it does not come back; the Kohonen neighbourhood gives values between 0 and 1 that do not depend on the calls made before, is 1 at the best matching unit, and is not greater for a cell that is farther away. A training with any of these functions, all computed with p bits, completes and keeps all weights within the power of two that bounds weights and objects.", "quantifier": "all numbers of iterations below 2^64, rates, radii, cutoffs, map sizes, sequences of calls, maps, objects, roundings and numbers of bits; any exponential function of the library with exp(0) = 1 and values in [0, 1] for arguments that are not positive (not decreasing where stated)", "why_tests_cant": "A factor slightly above 1 or a cell that re-enters the disk would show only for particular values of iteration and radius", "anchors": ["SOM/src/lib/LearningRestraintFunc.cpp:26-36", "SOM/src/lib/NeihbourhoodFunc.cpp:26-72", "SOM/SOM/SOMTrainer.h:41-84"]}
{"id": "C176", "title": "Draws from a density on a grid in double precision", "statement": "However the operations are rounded, draw(n) of a sampler gives n rows with one element for each axis and uses n uniform numbers per axis, and the element of a discrete axis is one of its knots; if all axes are discrete and the elements of the array are positive, then the constructor returns, leaves the array alone, and every number of draws returns; every element of a continuous axis lies between the first and the last knot, up to the tolerance of the code. (An element outside makes the densities along the first axis vanish, and its element is then its first knot for every random number.)", "quantifier": "all axes, arrays, numbers of draws, uniform numbers, roundings and square roots", "why_tests_cant": "The elements are random, and whether one leaves the range of the knots depends on the last bits of numbers that nearly cancel each other", "anchors": ["MathUtils/MathUtils/PDF/_impl/NdSampler.icpp:22-204", "MathUtils/MathUtils/helpers/_impl/InverseCumulative.icpp:34-151", "MathUtils/MathUtils/interpolation/_impl/GridInterpolation.icpp:19-182"]}
