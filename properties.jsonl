{"id": "C01", "title": "Ordered dictionary refines an ordered map", "statement": "Whatever sequence of item assignment, deletion, setdefault and rename is applied to an empty DataDict, iterating it yields every stored key exactly once and nothing else, lookups return the last value stored under the key, a newly assigned key goes last, and re-assigning an existing key keeps its place. The inherited methods pop, popitem and clear break this: they leave stale keys behind and a later items() raises KeyError.", "quantifier": "all finite operation histories over all keys and values", "why_tests_cant": "A history can interleave set/delete/rename arbitrarily; the order list and the dict are separate pieces of state that could drift apart after any prefix.", "anchors": ["hftools/dataset/dataset.py: DataDict"]}
{"id": "C02", "title": "rename keeps value and position", "statement": "Renaming key a to a fresh key b in a DataDict moves a's value to b, leaves every other key's value untouched and leaves b at the position a had; renaming onto an already present key overwrites that key's value (data loss) and keeps exactly one entry for it.", "quantifier": "all dictionaries reachable by operations, all pairs of keys", "why_tests_cant": "Depends on where the two keys sit in the order list and on aliasing between old and new key; all configurations must be covered.", "anchors": ["hftools/dataset/dataset.py: DataDict.rename", "hftools/dataset/dataset.py: DataBlock.rename"]}
{"id": "C03", "title": "DataBlock knows the dimensions of everything it stores", "statement": "After any sequence of assignments (of arrays or dimensions), deletions, renames, dimension replacements and copies on initially empty DataBlocks in which no array object is stored under two names, every dimension name of every stored variable is a key of block.ivardata, and reading back a variable just assigned returns it unless its name is that of a dimension or of a matrix element. Reading the name of a dimension gives its coordinates, also if a variable of that name is stored. If an array object is shared (keep_variables, or assigning the same array twice) renaming a dimension in one block breaks the other. Assigning a dimension of another length relabels the stored arrays without a length check.", "quantifier": "all histories of DataBlock.__setitem__/__delitem__/rename with all arrays", "why_tests_cant": "The invariant must survive every interleaving of assignments with overlapping dimension names.", "anchors": ["hftools/dataset/dataset.py: DataBlock.__setitem__, __delitem__, rename, __getitem__"]}
{"id": "C04", "title": "Matrix element access through names", "statement": "For a matrix variable X whose last two dimensions are its row and column, the names X11..X99 read and write exactly element (i-1,j-1) of X: after writing element (i,j) a read of the same element returns the written value and every other element, variable and dimension is unchanged. Names outside that range are misread: anything after the two digits is ignored, so that assigning X11_abs overwrites an element of X, and index 0 addresses the last row or column. A write also goes into a variable X that is no matrix, ignores dimension names, and is not seen by a read if a variable X11 is stored too.", "quantifier": "all matrix variables, all element names, all values", "why_tests_cant": "Range over all names, including names with more than two digits and digit 0.", "anchors": ["hftools/dataset/dataset.py: is_matrix_name, reg_matrix_name, DataBlock.__getitem__, DataBlock.__setitem__"]}
{"id": "C05", "title": "Dimension equality is an equivalence; its hash contract", "statement": "Equality between dimension objects is reflexive, symmetric and transitive; objects that compare equal have equal hashes provided their outputformat agrees, and without that proviso there are equal dimensions with different hashes. Going from a diagonal axis to its independent or derivative axis and back restores the class exactly for the two plain diagonal classes, and independent and derivative axes lead to each other and to the same diagonal axis.", "quantifier": "all dimension objects", "why_tests_cant": "Equivalence laws and the hash contract quantify over all pairs and triples of objects.", "anchors": ["hftools/dataset/dim.py: DimBase.__eq__, __hash__, __lt__", "hftools/dataset/dim.py: _DiagMeta, indep_axis, deriv_axis, diag_axis"]}
{"id": "C06", "title": "Binary operations align by dimension name", "statement": "For arrays whose dimensions are matched by name, a op b has as dimensions the union of the operands' dimensions ordered by sort priority, and its element at any named coordinate is (element of a at the coordinate restricted to a's dimensions) op (the same for b). The result does not depend on the axis order of the operands. An operator with a number gives the same elements as with an array without axes and keeps the axes.", "quantifier": "all arrays of all ranks, shapes and axis orders, all binary operators", "why_tests_cant": "Any rank and any permutation of axes; tests only cover a handful of shapes.", "anchors": ["hftools/dataset/arrayobj.py: dims_union, change_shape, make_same_dims, check_instance, _hfarray operators"]}
{"id": "C07", "title": "Reordering and transposing only permutes axes", "statement": "reorder_dimensions and transpose return an array whose element at a named coordinate equals the original element at the same named coordinate; the dims are the same collection, requested ones first; applying the inverse order restores the array. The matrix transpose `t` keeps places, names and classes of all axes and exchanges the coordinate values and the indices of rows and columns, wherever the two axes are; applied twice it restores elements and axes (but not unit and output format of the two matrix axes); without row or column axis it returns the array.", "quantifier": "all arrays, all requested dimension orders", "why_tests_cant": "All permutations of all ranks.", "anchors": ["hftools/dataset/arrayobj.py: _hfarray.reorder_dimensions, _hfarray.transpose", "hftools/dataset/arrayobj.py: _hfarray.t"]}
{"id": "C08", "title": "Reductions along a named dimension", "statement": "Summing (min, max, mean ...) over a dimension removes exactly that dimension and combines exactly the elements that agree in all other coordinates. Without an axis all elements are combined, each exactly once, and no dimension is left. A negative integer axis is not supported: it raises a shape/dims mismatch error instead of reducing.", "quantifier": "all arrays, all axis arguments", "why_tests_cant": "All ranks, all axes, all data.", "anchors": ["hftools/dataset/arrayobj.py: _hfarray.sum/mean/min/max, axis_handler, squeeze"]}
{"id": "C09", "title": "Indexing keeps dims and data in step", "statement": "Indexing an array with integers, slices and at most one Ellipsis yields an array with one dim per axis, in which integer-indexed dims are gone, sliced dims carry the equally sliced coordinate values and all others are unchanged; a slice a:b:t takes every t-th position from a up to but not including b, negative bounds counting from the end and bounds beyond the ends being cut off, a number the position it names from either end; indexing with a boolean array over one of the dims keeps exactly the true positions with their coordinate values; too many indices, positions out of range and a second Ellipsis are errors. Indexing with a list of positions and take() do not relabel correctly, None drops all labels.", "quantifier": "all arrays and all index tuples", "why_tests_cant": "Index tuples can be combined arbitrarily.", "anchors": ["hftools/dataset/arrayobj.py: _hfarray.__getitem__"]}
{"id": "C10", "title": "Removing repetition dimensions", "statement": "remove_rep merges all repetition dimensions into one, at the position of the first, such that the element at (…, k, …) is the original one at the mixed-radix digits of k, provided the repetition dimensions are adjacent; otherwise it either fails or drops the dimensions in between from the result.", "quantifier": "all arrays with any number and position of repetition dimensions", "why_tests_cant": "Position/rank combinations unbounded.", "anchors": ["hftools/dataset/arrayobj.py: remove_rep"]}
{"id": "C11", "title": "Real and complex numbers as 2x2 real matrices", "statement": "In the full-complex representation of complex data the 2x2 real matrix stored for a number acts on (re, im) as multiplication by that number; sums, negatives and matrix products of such matrices represent the sums, negatives and products of the numbers. Two things break this: real-typed data fills only one diagonal entry and so represents no number at all, and the operator * of arrays multiplies entry by entry, which represents no number unless one factor is real.", "quantifier": "all complex numbers / arrays", "why_tests_cant": "Algebraic law over all numbers.", "anchors": ["hftools/dataset/arrayobj.py: make_fullcomplex_array"]}
{"id": "C12", "title": "hyper gathers sweeps without mislabelling", "statement": "DataBlock.hyper turns a table of N rows into a hypercube exactly if N is the product of the numbers of different values of the coordinate columns, and then only permutes the elements. If the table covers the full grid and the values of every coordinate first appear in ascending order, the entry at coordinates (x,y,..) is the row that had these coordinate values; this condition is also necessary for correct labels of every variable. Coordinates that first appear in descending order exchange elements, and a table that lacks one combination but repeats another is accepted.", "quantifier": "all tables covering a full grid in any row order", "why_tests_cant": "Must hold for all row orders; the existing tests use ascending rows only.", "anchors": ["hftools/dataset/dataset.py: DataBlock.hyper", "hftools/utils.py: stable_uniq"]}
{"id": "C13", "title": "Splitting into dimension-consistent blocks", "statement": "yield_dim_consistent_datablocks terminates whatever order the set of dims is enumerated in, and returns the same blocks for every such order, with ever fewer dimensions; every dependent variable is in at least one returned block, and each returned block holds exactly the variables whose dims are those of the block or those without the first, in the order of the original block, and exactly their dims. A variable can be returned more than once, and a variable that uses a dimension twice makes the split fail.", "quantifier": "all DataBlocks", "why_tests_cant": "Arbitrary collections of variables with arbitrary dims.", "anchors": ["hftools/dataset/dataset.py: subset_datablock_by_dims, yield_dim_consistent_datablocks"]}
{"id": "C14", "title": "Matrix to element conversion names", "statement": "convert_matrices_to_elements produces one variable per matrix element and keeps every other variable; the names of one matrix are all different exactly if it has at most ten rows or at most ten columns, and up to 9x9 they can be read back as the element; from the tenth row or column on they are read as other elements; from 11x11 upward elements share a name and one is lost; a variable that already has the name of an element is lost.", "quantifier": "all port counts and variable names", "why_tests_cant": "Must range over all sizes and index pairs.", "anchors": ["hftools/dataset/dataset.py: convert_matrices_to_elements, is_matrix_name"]}
{"id": "C15", "title": "stable_uniq, uniq and flatten", "statement": "stable_uniq returns the distinct elements in order of first appearance (no duplicates, same set, subsequence of the input, idempotent); uniq returns the same set in ascending order; flatten returns the leaves of a nested list left to right.", "quantifier": "all finite lists (nested lists for flatten)", "why_tests_cant": "All inputs.", "anchors": ["hftools/utils.py: stable_uniq, uniq, flatten"]}
{"id": "C16", "title": "Engineering notation preserves value", "statement": "Splitting a number into mantissa and exponent yields an exponent that is a multiple of three and a mantissa in [1,1000) whose product is the number; the SI prefix printed names that exponent, for magnitudes from 1e-24 up to 1e24; outside it fails with KeyError although SI has a prefix for 1e24. A prefix from a to E is understood by unit_to_multiplier when read back; Z, z, y and the greek mu are not. Numbers just below a power of 1000 are printed as 1000.", "quantifier": "all numbers", "why_tests_cant": "Every magnitude.", "anchors": ["hftools/constants/si_units.py: _help_format_sci, mantissa, format_number, si_exp_to_prefixes, unit_to_multiplier"]}
{"id": "C17", "title": "Unit strings to multipliers", "statement": "unit_to_multiplier maps a unit string to (multiplier, base unit) such that prefix+unit gives the prefix' power of ten and the unit, and plain unit names are never split (for instance 'm' is metre, 'min' stays a unit); everything else is returned unchanged with multiplier 1.", "quantifier": "all unit strings", "why_tests_cant": "All strings.", "anchors": ["hftools/constants/si_units.py: unit_to_multiplier, string_number_with_unit_to_value, convert_with_unit"]}
{"id": "C18", "title": "Touchstone: data section is cut into records correctly", "statement": "For every port count n and every number F>=2 of increasing frequencies, a token stream made of F records of 1+2n^2 numbers is recognised as an n-port with exactly these frequencies and parameters, however it is broken into lines between pairs; noise records after a two-port are recognised if their first frequency is not higher than the last of the two-port. A file with exactly one frequency point is always rejected, noise above the band can make the file invalid, and two-ports broken in the middle of pairs can be taken for one-ports.", "quantifier": "all n, F and all numbers", "why_tests_cant": "Port count is inferred by search; all sizes must be unambiguous.", "anchors": ["hftools/file_formats/touchstone.py: process_data, _process_data, proc_data"]}
{"id": "C19", "title": "Touchstone save/read round trip", "statement": "Saving an n-port S-parameter block with two or more increasing frequencies and reading the result back gives the same frequencies and the same matrices for n<=2; for n>=3 what is read is the transpose of what was saved. A single frequency is saved but can never be read, descending frequencies may make the file unreadable, and a real-valued four-port can be read as a complex five-port.", "quantifier": "all n, all numbers of frequencies >= 2, all data", "why_tests_cant": "Round trip law over all data.", "anchors": ["hftools/file_formats/touchstone.py: format_touchstone_block, save_touchstone, proc_info, process_data"]}
{"id": "C20", "title": "Parser combinators neither lose nor duplicate tokens", "statement": "Running One/Optional/ManyOptional/OneOf over a token stream consumes a prefix of the stream, returns values for exactly the consumed tokens in order, ManyOptional consumes the longest matching prefix and leaves the first non-matching token available. Two exceptions: ManyOptional fails when the stream ends within the run of matching tokens, and OneOf loses a token it rejects.", "quantifier": "all token streams and matchers", "why_tests_cant": "All streams.", "anchors": ["hftools/file_formats/readbase.py: Stream, ManyOptional, Optional, OneOf, One"]}
{"id": "C21", "title": "Matrix assembly from element columns", "statement": "Element columns Xij of a block (for CITI files also X[i,j], which count only where there is no complete collection Xij) whose row and column digits form a complete grid of at least two columns are replaced by one matrix X in which column Xij sits at (rank of i among the row digits, rank of j among the column digits), hence at (i-1,j-1) when the digits are 1..n and 1..m; any incomplete or single collection of element names is left alone. With gaps in the digits the elements change their names (X23, X24 become X11, X12). Every other variable stays as it is. A variable with the base name is overwritten, a matrix cannot be called i or j beside another one, and if the first element is real the imaginary parts of the others are lost.", "quantifier": "all n<=9, all collections of column names and both forms of names", "why_tests_cant": "All sets of names.", "anchors": ["hftools/file_formats/readbase.py: match_matrix_elements, combine_elements_to_matrix, _matrix_elements"]}
{"id": "C22", "title": "CITI save/read round trip", "statement": "A block in which all variables have the same sweeps in the same order, with real coordinates, survives saving to CITI format and reading back: same sweeps and coordinates, same values at the same coordinates; a matrix (of at most ten ports) comes back as one variable for each element; the comments (unless they begin with CONSTANT TIME) come back without leading exclamation marks and surrounding blanks. Not so otherwise: sweeps in another order are silently read in the order of the file, a variable that lacks a sweep, a block without variables, or a number printed as nan, inf or with plus sign make the file unreadable, and of eleven-port matrices two elements get the same name.", "quantifier": "all blocks of this kind", "why_tests_cant": "Round trip law.", "anchors": ["hftools/file_formats/citi.py: format_citi_block, handle_data, parse_blocks"]}
{"id": "C23", "title": "MDIF name recognition", "statement": "The columns of an MDIF block are taken for a matrix (vector) exactly if their indices are all those from (1,1) to some (p,q) (from 1 to some n), provided no matrix element is given twice; with an element given twice another may be missing. Each column of a header of valid names is used exactly once and with its own numbers. Element (i,j) of the assembled matrix is the column named name[i,j], the matrix takes the place of its first element, and every other variable stays as it is; indices with leading zeros fail, and a variable that has the name of the matrix is lost. Shortening gives a variable the shortest dotted tail of its name not in use and changes nothing else; variables ending with .s are dropped and .m is taken off, which overwrites another variable if one already has that name (also if it got it by shortening), and only then.", "quantifier": "all finite sets of column names", "why_tests_cant": "All name sets.", "anchors": ["hftools/file_formats/mdif.py: match_matrix_names, is_matrix_name, is_vector_name, shorten_name, fixnames"]}
{"id": "C24", "title": "Normalising names does not lose data", "statement": "normalize_names keeps number, order, values and dimensions of the variables and changes only names, or raises an error because two variables would get the same name; but when two legacy names map to the same canonical name one variable is silently lost. A variable can get the name of a dimension and is then hidden, and the name of the x axis is not adjusted. Exactly the names of the form f(x) on one line are translated.", "quantifier": "all blocks", "why_tests_cant": "All sets of variable names.", "anchors": ["hftools/file_formats/common.py: normalize_names, remove_enclosing_function, _trtable"]}
{"id": "C25", "title": "Scoped configuration lookup", "statement": "LexicalScopeDict lookup returns the value of the innermost enclosing dictionary defining the key, and raises KeyError only if none does; membership tests agree with lookup when all ancestors are non-empty dictionaries and may disagree when a list or an empty dictionary lies between; a copy no longer sees the enclosing scopes. MergedDicts gives precedence to the last dictionary given, then to its parent.", "quantifier": "all scope trees and keys", "why_tests_cant": "All nestings.", "anchors": ["hftools/file_formats/config.py: LexicalScopeDict, LexicalScopeList, find_next_dict, MergedDicts"]}
{"id": "C26", "title": "HDF5 variable names and appending", "statement": "Escaping then unescaping a variable name is the identity iff the name contains no backslash, and escaped names never contain '/'; two distinct names collide on disk only if one of them contains a backslash. A block can be saved if its names have no backslash and no dimension in use has a slash; a variable along a dimension with a slash in its name cannot. Any sequence of appends keeps earlier data, and successful appends add the new slices in order; the stored index is not advanced, and a failing append leaves variables of unequal length.", "quantifier": "all names; all append histories", "why_tests_cant": "All strings, all histories.", "anchors": ["hftools/file_formats/hdf5/v_02.py: escape_varname, unescape_varname, append_hdf5"]}
{"id": "C27", "title": "Multiport representation conversion is physically consistent", "statement": "Converting a two-port between any two of Z, Y, S, G, H, ABCD, T, Tp keeps the set of port voltages/currents satisfying the network equations, whenever the target representation exists, and fails only where it does not exist; converting back gives the original matrix. Exceptions: an object made from a plain array forgets its reference impedance, asking for another impedance has no effect on S-parameters of the default impedance, integer arrays are truncated, and more than two ports are supported between Z and Y only.", "quantifier": "all complex 2x2 matrices, all nonzero reference impedances, all pairs of representations", "why_tests_cant": "Algebraic identity over all matrices.", "anchors": ["hftools/networks/multiports.py: convert, ZArray, YArray, SArray, GArray, HArray, ABCDArray, TArray, TpArray"]}
{"id": "C28", "title": "Cascading is associative with the through as identity", "statement": "Cascading two-ports connects them: the voltages/currents possible for the result are those possible for the connection, whatever the representations and impedances. It equals multiplying ABCD (or T, Tp) matrices, is associative whenever defined, and cascading with an ideal through returns the network; it is undefined exactly if waves can circulate between the networks with nothing coming in. Further arguments of cascadeS are ignored, and imaginary parts are lost if the first network is stored in real numbers.", "quantifier": "all two-ports for which the expressions are defined", "why_tests_cant": "Algebraic identity.", "anchors": ["hftools/networks/spar_functions.py: cascadeS", "hftools/networks/multiports.py: cascade, unit_smatrix"]}
{"id": "C29", "title": "De-embedding inverts cascading", "statement": "deembedleft(A, cascadeS(A,B)) = B and deembedright(cascadeS(A,B), B) = A and deembed(left, right) recovers the middle network, whenever the transmission of the removed networks is nonzero, and cascading what was found gives the measured network again. If the removed network does not transmit numbers may come out although no network fits; imaginary parts are lost if the measured network is stored in real numbers.", "quantifier": "all two-ports", "why_tests_cant": "Algebraic identity.", "anchors": ["hftools/networks/spar_functions.py: deembedleft, deembedright, deembed", "hftools/networks/multiports.py: deembed"]}
{"id": "C30", "title": "Noise correlation matrices", "statement": "Converting a two-port with noise, given by S-parameters for the default impedance and its noise correlation matrix, to another representation acts on every realisation of the noise sources by one matrix that keeps the noisy network; hence Hermitian positive semidefinite matrices stay so and the conversion fails only where the network conversion fails. Passive S-parameters get positive semidefinite correlation matrices, which in Y- or Z-parameters are those of thermal noise, 2kT(Y+Y^H). Noise parameters survive the round trip Fmin/Rn/Gamma_opt -> correlation matrix -> noise parameters. Violations: Rn is doubled in the ABCD path; converting from any other class than S-parameters, and passive_noise of Y- or Z-parameters, always raise an exception; for S-parameters of another impedance the correlation matrix is wrong.", "quantifier": "all correlation matrices, networks and noise parameters", "why_tests_cant": "All matrices.", "anchors": ["hftools/networks/noise.py: NoisyTwoport.convert, passive_noise, from_noisepar, noise_parameters"]}
{"id": "C31", "title": "Passivity and reciprocity enforcement", "statement": "make_reciprocal returns a symmetric matrix whose transmission is a geometric mean, is idempotent and changes no reciprocal network, but may take the wrong one of the two roots. make_passive_svd returns a passive network and changes exactly the networks that are not passive; the documented margin is not kept. make_passive_eig only bounds the eigenvalues, which is not passivity: it leaves amplifiers as they are.", "quantifier": "all square complex matrices", "why_tests_cant": "All matrices.", "anchors": ["hftools/networks/spar_functions.py: make_reciprocal, make_passive_svd, make_passive_eig, check_passive"]}
{"id": "C32", "title": "Angle and phase unwrapping", "statement": "angle(x, branch) returns the only angle of x in the interval of length 360 that begins after branch (the documentation says beginning with it); unwrapping a phase sequence without zeros changes each value by a multiple of 2 pi and leaves consecutive jumps no larger than pi in magnitude, and so recovers a phase that turns by less than half a turn per step.", "quantifier": "all nonzero complex numbers, branches; all real sequences", "why_tests_cant": "All reals.", "anchors": ["hftools/math.py: angle, _unwrap_phase, continous_phase_sqrt"]}
{"id": "C33", "title": "dB and complex constructors", "statement": "dBinv inverts dB on nonzero magnitudes; dB(x*y)=dB(x)+dB(y); building a complex number from dB/angle or magnitude/angle yields exactly that magnitude and angle.", "quantifier": "all nonzero complex numbers", "why_tests_cant": "All reals.", "anchors": ["hftools/math.py: dB, dBinv, dB_angle_to_complex, mag_angle_to_complex, re_im_to_complex"]}
{"id": "C34", "title": "Smoothing windows", "statement": "smooth averages over a window that lies inside the data, contains the sample and has the aperture's length away from the ends; results stay within the bounds of the data, constants are preserved, and for odd apertures linear data is preserved; for even apertures it is shifted, integer data is truncated towards zero and other axes than the first are mixed up. poly_smooth preserves polynomials up to its degree; its window always has exactly the aperture length, but for apertures below the data length it never contains the last sample.", "quantifier": "all lengths, apertures and indices", "why_tests_cant": "All sizes.", "anchors": ["hftools/math.py: smooth, poly_smooth"]}
{"id": "C35", "title": "Linear interpolation and extrapolation", "statement": "Extrapolating/interpolating on ascending knots gives the value on the straight line through the two neighbouring knots (the first or last two outside the range), returns the knot values and reproduces linear functions everywhere; interpolate refuses exactly the points outside the range. Descending knots pass the check of the range but can give wrong values.", "quantifier": "all strictly increasing knots and data", "why_tests_cant": "All reals.", "anchors": ["hftools/math.py: linear_extrapolate, interpolate"]}
{"id": "C36", "title": "Group delay", "statement": "delay of a linear phase exp(-j 2 pi f tau) is tau at every point, independent of the frequency spacing, provided the spacing does not alias.", "quantifier": "all frequency grids and delays", "why_tests_cant": "All reals.", "anchors": ["hftools/math.py: delay"]}
{"id": "C37", "title": "Smith chart geometry", "statement": "RCircle(r), XCircle(x), GCircle(g), BCircle(b) consist of exactly the reflections of constant resistance, reactance, conductance, susceptance (and the one limiting point); with end points the arcs have exactly the reflections between them, for RCircle and XCircle in either order, for GCircle and BCircle only if the lower one is given first; this holds also for infinite end points as used by the grid (of values up to 1e15); y2gamma(1/z)=z2gamma(z); for b=0 with end points BCircle returns the mirrored segment.", "quantifier": "all real parameters", "why_tests_cant": "All reals.", "anchors": ["hftools/plotting/smith.py: z2gamma, y2gamma, RCircle, XCircle, GCircle, BCircle"]}
{"id": "C38", "title": "File type dispatch", "statement": "read_data reads all matching files with one reader: the format of the first line of the first file that any recogniser accepts, the earlier one in the priority list if several accept that line, and the SP format if none accepts any line. The priority list does not decide between different lines, and files after the first are not inspected. A line is taken for MDIF if it begins with VAR name(type), for CITI if it begins with CITIFILE, for Touchstone if it begins with # [kmgtp]Hz, one of the letters s, z, y, g, h and two letters in capitals or not, for a MATLAB file if it begins with MATLAB 5.0 MAT-file.", "quantifier": "all recogniser outcomes", "why_tests_cant": "All combinations.", "anchors": ["hftools/file_formats/__init__.py: read_data", "hftools/file_formats/mdif.py: is_mdif", "hftools/file_formats/touchstone.py: is_touchstone", "hftools/file_formats/citi.py: is_citi"]}
{"id": "C39", "title": "Cached reading", "statement": "read_to_cache reads the source exactly when there is no cache file or rereading is asked for, and then stores the data as the body left it; otherwise it yields the data stored by the last successful body under the same cache name. If the body raises, the cache file is left as before. The cache is keyed by the base name only, so sources with equal base names share it; a changed source is not noticed; a failing save destroys the stored data. If no cache name is given it is that of the file without directories and extension.", "quantifier": "all sequences of reads and crash points", "why_tests_cant": "All interleavings.", "anchors": ["hftools/file_formats/__init__.py: read_to_cache, read_from_cache, read_data"]}
{"id": "C40", "title": "Logging start/stop", "statement": "After any sequence of start_log/stop_log calls at most one stderr handler is attached to the hftools logger, so no message is ever printed twice; messages are printed iff the last effective call was start_log; handlers attached by the application are never touched.", "quantifier": "all call sequences", "why_tests_cant": "Histories.", "anchors": ["hftools/logger.py: start_log, stop_log"]}
{"id": "C41", "title": "Natural ordering of names", "statement": "lex_order (and so glob) returns the given names, each exactly as often as given, in an order that does not depend on the order of the input; of two names with the same beginning followed by a number the one with the numerically smaller number comes first. The call never fails when every name begins with a non-digit; a name beginning with a digit cannot be compared with one that does not.", "quantifier": "all lists of names made of decimal digits and other characters", "why_tests_cant": "All strings.", "anchors": ["hftools/utils.py: lex_order, split_num, to_numeric, glob"]}
{"id": "C42", "title": "Time intervals in configuration files", "statement": "A time interval is split into days, hours, minutes and seconds that are in range and add up to it; the text made for a non-negative interval is understood as the same interval, except when the part beyond whole minutes is below 0.0001 s. The text made for a negative interval is not understood. (In a file the text is put in quotes, so that it is read back as text and not as interval: C81.)", "quantifier": "all time intervals in whole microseconds", "why_tests_cant": "All integers.", "anchors": ["hftools/file_formats/config.py: timeintervall_representer, timeintervall_constructor, timeintervallpattern"]}
{"id": "C43", "title": "Text with number and unit", "statement": "A text made of a decimal number, blanks and a unit is read as number times multiplier of the unit with the base unit. A two digit exponent is cut after its first digit and the unit is lost, a negative exponent is rejected, and a unit in brackets is neither scaled nor unwrapped.", "quantifier": "all decimal numbers, blanks and units", "why_tests_cant": "All strings.", "anchors": ["hftools/constants/si_units.py: string_number_with_unit_to_value, convert_with_unit, reg_value, reg_unit"]}
{"id": "C44", "title": "SI values in configuration files", "statement": "A number followed by an SI prefix and a unit, by a prefix alone or by a unit alone is read as the scaled number with that unit; nothing else is accepted. The only exception is the unit m, which is read as the prefix milli.", "quantifier": "all numbers, prefixes and units", "why_tests_cant": "All strings.", "anchors": ["hftools/file_formats/config.py: convert_si_value, reg_si_value"]}
{"id": "C45", "title": "The x axis name of a block", "statement": "After an odd number of array assignments with at least one dimension the block has an x axis name, after an even number it has none: the name is toggled rather than kept.", "quantifier": "all sequences of array assignments to an initially empty block", "why_tests_cant": "Histories of unbounded length.", "anchors": ["hftools/dataset/dataset.py: DataBlock.__setitem__, DataBlock.xname"]}
{"id": "C46", "title": "Filtering a block", "statement": "block.filter(mask) with a one-dimensional boolean array keeps of every variable that has a dimension of that name exactly the points at which the mask is true, in their order, along this dimension only; the dimension keeps exactly the coordinate values of these points; variables without the dimension are unchanged, names, order and x axis stay. With an array of values it should keep exactly the points whose coordinate value is one of the values; this holds only if the array is as long as the axis and its values stand at the positions of the coordinate values they equal. Otherwise points of other coordinates are returned or an exception is raised. Dimensions no variable depends on are lost.", "quantifier": "all blocks, dimensions, masks and value arrays", "why_tests_cant": "The claim is about every block and every mask; the existing test for value arrays checks the coordinate values only and so does not see that the data belongs to other points.", "anchors": ["hftools/dataset/dataset.py: DataBlock.filter"]}
{"id": "C47", "title": "Sorting a block", "statement": "block.sort(array) rearranges every variable that has the dimension of the array, and the coordinate values of this dimension, by one and the same permutation, so that values which belonged together still do; the variable sorted by ends up in order with the same values; everything else is unchanged. A dimension the block does not know leaves it unchanged. It fails for dimensions no variable depends on, and an array shorter than the axis makes points disappear.", "quantifier": "all blocks, dimensions and sort orders", "why_tests_cant": "Holds for every block and every permutation; tests use one block of three points.", "anchors": ["hftools/dataset/dataset.py: DataBlock.sort", "hftools/dataset/arrayobj.py: take"]}
{"id": "C48", "title": "Merging blocks with partial sweeps", "statement": "merge_blocks(blocks), for blocks which all have the same partial sweeps and the same variables with equal shapes, gives one block: for each partial sweep a variable with its value in every block, and for each variable the values of all blocks, block number i at index i of a new sweep INDEX1, which is placed behind a leading sweep; the other dimensions are those of the first block, axes of length one are dropped; INDEX1 is a dimension of the block, and no partial sweep or variable is one. Blocks with different partial sweeps form families; if no two families share a name, each family is treated in this way over a sweep of its own, INDEX1, INDEX2 and so on in the order in which the families appear. Blocks without any partial sweep cannot be merged. The coordinates of the other blocks are not compared with those of the first, a variable that is missing in some block is shifted against the index, and names which families share get values or sweeps of the wrong family.", "quantifier": "all lists of blocks, all names, values, shapes and orders in which the set of variable names is enumerated", "why_tests_cant": "The number of blocks, sweeps and variables is unbounded, and the order of the variables depends on string hashing; tests merge two or three fixed files.", "anchors": ["hftools/file_formats/merge.py: get_partials, merge_blocks", "hftools/file_formats/readbase.py: ReadFileFormat._merge", "hftools/dataset/dataset.py: DataBlock.squeeze"]}
{"id": "C49", "title": "Squeezing arrays and blocks", "statement": "squeeze() removes from an array exactly the dimensions whose axes have length one; the others stay in order with their lengths, and every element stays at its named coordinate. Squeezing a block does this to each variable and keeps all names and all dimensions known to the block. Networks with one port are no longer matrices afterwards, so that S11 cannot be read any more.", "quantifier": "all arrays and blocks", "why_tests_cant": "Holds for any rank and any pattern of axes of length one; tests use four small arrays.", "anchors": ["hftools/dataset/arrayobj.py: hfarray.squeeze", "hftools/dataset/dataset.py: DataBlock.squeeze"]}
{"id": "C50", "title": "Interpolating blocks and arrays", "statement": "interpolate(newx, y) without a mode picks points: if the axis is the first one of y and the new coordinates are some of the old ones in the same order, the value at each new coordinate is the one that was at this coordinate before; a new coordinate that did not exist is a ValueError; arrays without the dimension are returned unchanged; block.interpolate does this to every variable. In linear mode every value is that of the one-dimensional interpolation along the axis, whichever axis this is, and values at old coordinates are kept. Without a mode, new coordinates in another order change the labels but not the values, and an axis other than the first one makes the points be picked along the first axis.", "quantifier": "all arrays, blocks, axes and lists of new coordinates", "why_tests_cant": "Holds for any rank, any number of points and any selection of them; the tests use a single array with one axis, which hides both defects.", "anchors": ["hftools/dataset/dataset.py: interpolate, DataBlock.interpolate", "hftools/dataset/arrayobj.py: Dims.matching_index"]}
{"id": "C51", "title": "Real and imaginary columns become complex variables", "statement": "After reading with make_complex, for every x that is not yet a variable and for which there are columns Re(x) and Im(x), or Mag(x) and Arg(x), the block has one variable x that at each coordinate is the complex number with these parts (argument in degrees); the columns themselves are gone, every other variable and every dimension is unchanged. A name counts as such a column exactly if it has the form of a call, with optional blanks before the parenthesis and the argument extending to the last closing parenthesis. What follows this parenthesis (such as a unit) is ignored, so that parts of different quantities can be combined; and if x names an element of a matrix that the block has, the element of the matrix is overwritten.", "quantifier": "all blocks, all names, arrays of any rank", "why_tests_cant": "Any number of columns in any order with any names; the tests use two or three columns.", "anchors": ["hftools/file_formats/readbase.py: get_outer_function, make_cplx, ReadFileFormat.make_block_complex"]}
{"id": "C52", "title": "Reading of SP data files", "statement": "Every table of an SP data file is read as a block: the first column is the sweep, every other name a variable whose value at each sweep point is the number in that row and column (columns of the same name form one variable over the sweep and a repetition), in the order of the columns; comments `@name=value` become partial sweeps, other comments are kept; blank lines, padding of names and line ends do not matter; a header whose number of names differs from that of the fields is rejected. Violated in four cases: rows other than the first that are too short make the columns they lack disappear silently; with a single row a repeated column loses its sweep; a row that begins with a letter (`nan`) is taken for a header and the file is rejected; and a sweep value written with a signed exponent (`%.16e`, the format used for saving) makes the file unreadable.", "quantifier": "all files made of any number of tables with any names, rows, comments, padding and blank lines", "why_tests_cant": "Tests read a few sample files; that every table of every size, with any placement of blank lines and repeated names, is read value by value is a statement about all files.", "anchors": ["hftools/file_formats/spdata.py: ReadSPFileFormat.tokenize, group_blocks, parse_blocks, read_spdata"]}
{"id": "C53", "title": "Properties in comments", "statement": "A comment `name = value` or `name : value`, with an optional unit in brackets after the name, sets exactly the property of that name, up to the first separator, whatever blanks are in between; the last such comment counts; a comment without separator sets nothing. A decimal number with a unit is the number times the prefix with the base unit. Violated for numbers with an exponent: `2e10` is read as 20, and a signed exponent gives no array with a unit.", "quantifier": "all lists of comments, names, units, separators, blanks and decimal numbers", "why_tests_cant": "The result depends on the matching of a regular expression with optional and lazy parts against arbitrary text.", "anchors": ["hftools/file_formats/common.py: process_comment, reg_comment_all, Comments.add_from_comment, add_from_comments", "hftools/constants/si_units.py: string_number_with_unit_to_value, convert_with_unit"]}
{"id": "C54", "title": "Expansion of diagonal axes", "statement": "expand_diagonals replaces every given diagonal axis (by default all of them), in place, by the pair of its independent and derivative axis with the same name and coordinates; the element at a coordinate is that of the original array where the two indices of every pair agree, and zero everywhere else. Axes that are not diagonal or do not belong to the array are rejected. Without matrix axes no diagonal axis is left, so a second expansion changes nothing; with matrix axes it does (violation: the independent and derivative matrix axes are diagonal axes by class).", "quantifier": "all arrays of any rank and shape, all lists of axes, all coordinates", "why_tests_cant": "The function writes through a strided view of raw memory; that no element is hit twice or missed for any rank, shape and position of the axes needs the arithmetic of strides for all shapes.", "anchors": ["hftools/dataset/arrayobj.py: expand_diagonals, _expand_diagonal, diagonal_view, as_strided", "hftools/dataset/dim.py: _DiagMeta, indep_axis, deriv_axis"]}
{"id": "C55", "title": "Cumulative operations and new axes", "statement": "cumsum and cumprod along an axis, given by number, name, object or class, keep shape and axes and combine at each coordinate exactly the elements from the beginning of that axis up to the coordinate, provided no earlier axis has the same name; unknown and ambiguous axes are rejected. add_dim puts a new axis at the given place (at most at the end) with one index per coordinate value, along which the elements are constant, and does nothing if there is such an axis. Violated: with two axes of the same name (an expanded diagonal) the second one cannot be reached, not even by number, and the operation silently runs along the first; add_dim with a place counted from the end, or with a dimension without values, gives an array whose shape contradicts its axes.", "quantifier": "all arrays, axes, ways to give the axis, coordinates", "why_tests_cant": "Statement about every rank, position of the axis and coordinate; tests use fixed small arrays with distinct names.", "anchors": ["hftools/dataset/arrayobj.py: _hfarray.cumsum, cumprod, add_dim, dims_index, axis_handler", "hftools/dataset/dim.py: DimBase.__eq__"]}
{"id": "C56", "title": "Saving as an SP data file and reading it again", "statement": "save_spdata writes a block with any variables over any axes (matrices, complex variables, units, comments) such that read_spdata's block reader finds exactly one block for each set of axes and each position in all axes but the first: with the coordinates of the first axis, with exactly the variables over these axes under their titles (elements of matrices row by row, Re()/Im() for complex ones, unit in brackets) with every value in place, with the position in the other axes as partial sweeps, and with the comments in the first block only. Variables without axes are dropped silently, an axis without variables ends the writing with an exception, elements of matrices with more than ten ports get equal names, and floating point coordinates of outer axes in the default format cannot be read back.", "quantifier": "all blocks (any number of variables, axes, points, ports), all formats and units, all comments", "why_tests_cant": "A round trip in a test uses one block; the mapping of arrays of any rank to tables and back, the grouping by axes and the conditions on names and formats are about all blocks.", "anchors": ["hftools/file_formats/spdata.py: save_spdata, format_sp_block", "hftools/file_formats/common.py: db_iterator, make_block_iterator, make_col_from_matrix, format_complex_header, format_unit_header, format_elem"]}
{"id": "C57", "title": "Units in the titles of columns are applied and removed", "statement": "Reading a file with unit guessing on, a column whose title ends in a unit in brackets is found under the name before it (without the blanks), its values multiplied by the SI prefix of the unit and with the unit without prefix as its unit; a column without a unit in its title keeps name and values and gets the unit known for its name unless it has one. The same holds for the dimensions and for the dimensions of all variables, nothing else changes. Needed is that the names so obtained are different from each other and from the names in use, and are not understood as elements of a matrix of the block; otherwise columns are lost, or the factor goes to the wrong variable. Dimensions without a unit are moved behind the others.", "quantifier": "all titles, all blocks with distinct names, all tables of known units", "why_tests_cant": "Titles are free text and are handled one after the other in a block which changes meanwhile.", "anchors": ["hftools/file_formats/readbase.py: reg_varunit, fix_unit, ReadFileFormat._guess_unit", "hftools/dataset/dataset.py: DataBlock.guess_units, replace_dim, rename"]}
{"id": "C58", "title": "Matrix products are taken per coordinate", "statement": "matrix_multiply(a, b) of two hfarrays that hold a stack of matrices (one row axis, one column axis at any place, otherwise sweeps and repetitions) gives an hfarray with the axes of both, rows and columns last, which at every coordinate of the stack holds the product of the matrices that the operands hold at that coordinate (an operand without an axis, or with length one, is repeated). Sizes that do not fit raise ValueError. Products of three stacks do not depend on the brackets. For square matrices the labels of the result fit.", "quantifier": "all operands, all positions and orders of axes, all sizes, all coordinates, elements of any semiring", "why_tests_cant": "The number of axis orders, sizes and sets of shared axes is unbounded; a test with equal axis orders cannot distinguish alignment by name from alignment by position.", "anchors": ["hftools/math.py: matrix_multiply", "hftools/dataset/arrayobj.py: make_same_dims, dims_union, change_shape"]}
{"id": "C59", "title": "Determinants, inverses and linear systems are solved per coordinate", "statement": "For stacks of square matrices: det(A) has the axes of the stack and holds the determinant of the matrix at every coordinate, the determinants of a product are the products of the determinants; inv(A) exists exactly if no matrix is singular (LinAlgError otherwise) and the product with A, in either order, is the identity at every coordinate; solve_Ab(A, b) for a matrix or vector b gives the only array that satisfies A x = b at every coordinate, LinAlgError if a matrix is singular; squeezing only drops axes of length one.", "quantifier": "all stacks, all matrix sizes, all sets and lengths of further axes, all coordinates, elements of any field", "why_tests_cant": "Holds for every size and every regular matrix; tests can only try single matrices.", "anchors": ["hftools/math.py: det, inv, solve_Ab"]}
{"id": "C60", "title": "Several files are read into one block, in order, with number and name", "statement": "read_file(pattern) for files with one block each, which have the same variables in the same shapes, gives one block: every variable gets a sweep over the files, and at its index i there are the values of the i-th file; FILENAME holds there the name of the i-th file and FILEINDEX the number i. Other axes are those of the first file. One file gives its own block with name and number; FILEINDEX and FILENAME which the block has of its own are kept. If a file cannot be read, or none matches, an exception is raised and nothing is returned.", "quantifier": "all numbers of files, all file contents, all variables and shapes, all coordinates, any enumeration order of sets", "why_tests_cant": "Tests read two or three fixed files; mixing up files, or numbering from the wrong start, must be excluded for every number of files, and set iteration order varies between runs.", "anchors": ["hftools/file_formats/readbase.py: ReadFileFormat.read_file, ReadFileFormat.do_file, ReadFileFormat._merge", "hftools/file_formats/merge.py: merge_blocks"]}
{"id": "C61", "title": "Arithmetic with port parameters", "statement": "An operator (+, -, *, / and so on) with S-parameters of the default impedance on the left side gives a new array of S-parameters of this impedance whose elements are computed from those of the left operand and of the S-parameters of the right one, whatever its class and impedance, and no array that exists is changed. Violations: with arrays of Z-, Y-, G-, H-, ABCD-, T- or Tp-parameters on the left side every operator raises TypeError; with S-parameters of another impedance on the left side the left operand itself is overwritten with its parameters for the default impedance although it still reports the old impedance.", "quantifier": "all matrices, impedances, classes of both operands, operators on elements and contents of memory", "why_tests_cant": "All matrices, impedances and ways of sharing memory; the tests only use the default impedance.", "anchors": ["hftools/networks/multiports.py: _MultiPortArray.__init__, _MultiPortArray.view", "hftools/dataset/arrayobj.py: change_shape, make_same_dims, check_instance, _hfarray.transpose"]}
{"id": "C62", "title": "Elements of port parameters as attributes", "statement": "For an array of n-port parameters (Z, Y, S, G, H, A, T, Tp) the attribute made of the name of the class, in capital or small letters, and the numbers of a row and a column counted from one gives the elements in this row and column with the other dimensions of the array; assigning to it changes exactly these elements, so that reading them under any spelling gives the value assigned and reading others what it gave before; every other such attribute raises AttributeError. This holds for up to ten ports, and for rows and columns up to nine for any number of ports; in general for the last row among those spelled alike. Violations: with more than ten ports S111 is row 11, column 1, and the element in row 1, column 11 has no name; the result of arithmetic has no element attributes at all.", "quantifier": "all classes, numbers of ports, arrays, rows, columns, spellings and values", "why_tests_cant": "All numbers of ports and all elements; tests use two ports.", "anchors": ["hftools/networks/multiports.py: make_accessor, _MultiPortArray.__init__, _MultiPortArray.__getattr__, _MultiPortArray.__setattr__"]}
{"id": "C63", "title": "Reading the text of MDIF files", "statement": "Every line of an MDIF file is recognised by how it begins (!, VAR, BEGIN, #, %, END, otherwise data; blank lines are passed over). The lines of each complete block BEGIN..END become one block, in the order of the file, and nothing of one block goes into another. A block has one variable for each column of its table except the first, in the order of the titles, with the numbers written under its title (also when the titles of one row of the table take several lines and when a complex column takes two words), as a function of the first column; its VAR settings become partial sweeps with that value, its # settings become numbers, and its comments are kept. A setting that is not of the type real or not followed by one number makes the block an error, a misplaced line the file, a file without a complete block is an error. Exceptions: a last block without END is dropped silently; in Python 3.7 or later no file can be read at all (PEP 479); surplus words of a line and repeated titles are not errors; a table without title loops for ever; the only column of a table is lost.", "quantifier": "all texts of lines, all numbers of blocks, comments, settings, title lines, columns and rows, all types of columns and all conversions of numbers", "why_tests_cant": "Tests read a few sample files; how titles, rows, settings and blocks can be combined is unbounded, and an error in the assignment of words to columns for some layout of title lines would remain unseen.", "anchors": ["hftools/file_formats/mdif.py: GetData, ReadMDIFFileFormat.tokenize, group_blocks, parse_blocks, proc_data, proc_attrib, proc_var", "hftools/file_formats/readbase.py: Token, Stream, ManyOptional, One, ReadFileFormat.do_file"]}
{"id": "C64", "title": "Reading Touchstone files: meaning of lines and option line", "statement": "In a Touchstone file lines beginning with ! are comments (kept in order), the line beginning with # is the option line, blank lines are passed over, and all other lines are numbers up to a !. The option line names unit of frequency, parameter, format and optionally a reference resistance, in this order, in any case and spacing; without resistance it is 1. A file with one option line and the records of an n-port at two or more increasing frequencies, however they are broken into lines and whatever comments stand between and behind them, gives the parameter named with the frequencies in Hz, the elements as the format says, row by row and for two-ports column by column, and the reference resistance; records of noise parameters after those of a two-port give noise figure, optimal reflection and noise resistance (times the reference resistance) over their own frequencies. A file without or with a second option line, or with a word that is not a number, is an error.", "quantifier": "all texts of lines, all spellings of option lines, all numbers of ports, frequencies and comments, all ways of breaking lines, all numbers and conversions of numbers", "why_tests_cant": "Combinations of options, spacings, line breaks and comments are unbounded; tests read a few files.", "anchors": ["hftools/file_formats/touchstone.py: ReadTouchstoneFileFormat.tokenize, ReadTouchstoneFileFormat.parse_blocks, proc_data, proc_info"]}
{"id": "C65", "title": "Reading CITI files", "statement": "Every line of a CITI file is recognised by how it begins (CITIFILE, NAME, VAR, DATA, SEG, VAR_LIST_BEGIN/END, SEG_LIST_BEGIN/END, BEGIN, END, a comment mark !, #, COMMENT or CONSTANT, or a number); blank lines are passed over and any other line makes the file an error. A file gives its name, its comments in order (CONSTANT TIME rewritten as date and time), one sweep for each VAR with the coordinates listed or evenly spaced between the ends of its segment, both included, and one variable for each DATA over all sweeps, whose values are the numbers as written (MAG, RI or MAGANGLE), line by line with the last sweep running fastest. Data of an unknown kind, words that are not numbers and too many or too few numbers are errors. Violations: of several packages in a file only the first is read, without notice; a sweep of several segments, a comment among lists of coordinates or between data, and a CONSTANT TIME without six numbers make the file unreadable; the announced number of coordinates is not compared with those given.", "quantifier": "all texts of lines, all numbers of comments, sweeps, coordinates and variables, all conversions of numbers", "why_tests_cant": "Tests read a few files; the combinations of sweeps, kinds of lists, comments and spacings are unbounded.", "anchors": ["hftools/file_formats/citi.py: tokenize, parse_blocks, handle_data"]}
{"id": "C66", "title": "Saving MDIF files", "statement": "A block whose variables are all over the same sweeps or over all of them but the first, with both kinds present and with coordinates 0, 1, 2, ... of all sweeps but the first, is saved without error, whatever the number of sweeps, of variables and of points, and reading the file gives one block for each combination of the sweeps but the first, the last running fastest: each has the coordinates of its combination, all columns over the first sweep with the values as they were (complex ones too), all settings as numbers with the values as they were, and nothing else; matrices are saved as one variable per element, and the first block carries the time of saving as its comment. Violations: a block in which no variable is over all sweeps but the first (for example plain data over one sweep, without a number beside it) cannot be saved and leaves an unfinished file; coordinates are taken as indices, so that coordinates that are not integers or too large cannot be saved and permuted ones save the data under the wrong coordinate without notice; with two or more sweeps numbers are left out without notice; a complex variable over all sweeps but the first cannot be saved; the name of the block is lost.", "quantifier": "all blocks, all numbers of sweeps, coordinates and variables, all formats of numbers that can be read back", "why_tests_cant": "Tests save a few blocks of fixed size; the combinations of sweeps, columns and settings are unbounded, and the coordinates of the tests happen to be small integers.", "anchors": ["hftools/file_formats/mdif.py: fmt_mdif_block, loop_db, save_mdif, read_mdif", "hftools/file_formats/common.py: format_complex_header, format_elem", "hftools/dataset/dataset.py: yield_dim_consistent_datablocks, subset_datablock_by_dims, convert_matrices_to_elements"]}
{"id": "C67", "title": "Blocks of MDIF files with the same name are put together without loss", "statement": "If several MDIF files are read, the blocks of the same name become one block: every variable of the first block gets the number of the block as its second index (the only one for numbers), every setting becomes a variable over the number of the block, and the values at number m are those of the m-th block of this name, counted through the files in their order. FILENAME and FILEINDEX tell for every number the file it is from. A block that is the only one of its name is as it was, with FILENAME and FILEINDEX. A name asked for selects its block. A file without blocks or that cannot be read is an error. A block that was saved is, put together again after reading, the saved variables with the positions of the inner sweeps numbered. Refuted: the coordinates of later blocks are lost even if they are other ones, variables that only later blocks have are lost, there is no error for an unknown name (None) or no files (nothing).", "quantifier": "all numbers of files and blocks, all names, all variables of any dimension, all settings, coordinates and values, all savable blocks", "why_tests_cant": "The files, the blocks in them, and the shapes and number of their variables are unbounded, and mixing up block numbers shows up only for certain combinations of names and files.", "anchors": ["hftools/file_formats/mdif.py: ReadMDIFFileFormat.read_file, _merge, simple_merge_blocks", "hftools/file_formats/readbase.py: ReadFileFormat.do_file"]}
{"id": "C68", "title": "A block with a table becomes a block with hypercubes", "statement": "If some columns of a table together tell every combination of their values exactly once, and the values of each column first appear in ascending order, then `hyper` gives a block in which these columns are dimensions with their different values: every variable over the rows, whatever further axes it has before or behind, has the new axes in place of the rows, and its element at given values of the new dimensions is that of the row with these values. Variables without the rows stay as they are, or are left out if asked for; the dimension of the rows is gone, all other ones stay, and no other variables appear. With `indexed` the columns are kept, spread as well, and the dimensions have other names. If the number of rows is not the product of the numbers of values, there is an error. Violations: if the values of a column do not first appear in ascending order, the elements are found at wrong values; a table that repeats one combination and lacks another one is accepted.", "quantifier": "all blocks, all numbers of columns, rows and variables, all positions of the axis of the rows, all orders of the rows", "why_tests_cant": "The elements are only in the right place if sorting, reshaping and naming agree for every number and order of the columns and every place of the axis; tests use small tables that are already sorted.", "anchors": ["hftools/dataset/dataset.py: DataBlock.hyper", "hftools/utils.py: stable_uniq"]}
{"id": "C69", "title": "Merging measurements at several settings to hypercubes", "statement": "Blocks with the same partial sweeps and the same variables, one block for every combination of values of these sweeps and in an order in which the values of each sweep first appear in ascending order, are merged with `hyper=True` to one block in which every partial sweep is a dimension with its different values: every variable has the new axes behind a leading sweep, else in front, and its elements at given values are those of the block with these values; axes of length one are left out; the other dimensions are those of the first block, and no numbering of the blocks is left. Violations: if the values do not first appear in ascending order the elements of one block are found at the values of another one; a repeated combination in place of a missing one is accepted; the argument `indexed` has no effect.", "quantifier": "all numbers of blocks, partial sweeps, values and variables, all shapes, all orders of the set of names of variables", "why_tests_cant": "The assignment of blocks to positions goes through numbering, stacking, sorting, reshaping and squeezing; that the result is right for every number of settings and every order of the files cannot be seen from a few files.", "anchors": ["hftools/file_formats/merge.py: merge_blocks", "hftools/dataset/dataset.py: DataBlock.hyper, DataBlock.squeeze"]}
{"id": "C70", "title": "Repetitions of a whole block become one list, and can be got back", "statement": "If every variable of a block that depends on repetitions depends on all of them, next to each other and in the order in which the block knows them, `DataBlock.remove_rep` gives a block in which they are counted through by one dimension: the element of a variable at given repetitions is found at their row-major number, with the other axes as before; for every kind of repetition there is a variable with its name that tells, for each number, its coordinate; other variables stay as they are. If the coordinates are ascending, `hyper` over these names gives every variable its axes, now as sweeps, and all its elements back. Violations: if a variable has the repetitions in another order than the block, the coordinates told are those of other elements; if a variable depends on some of the repetitions only, its axis is shorter than the dimension of its name.", "quantifier": "all blocks, all numbers and lengths of repetitions, all numbers of variables and of axes before and behind the repetitions", "why_tests_cant": "The numbering of the coordinates is made from the dimensions of the block, that of the elements from the axes of each variable; that both agree for every number of repetitions and every shape, and what is needed for it, is not seen in single examples.", "anchors": ["hftools/dataset/dataset.py: DataBlock.remove_rep, DataBlock.hyper", "hftools/dataset/arrayobj.py: remove_rep"]}
{"id": "C71", "title": "HDF5 files of version 0.2 give back what was saved", "statement": "A block saved with `save_hdf5` (version 0.2, the default) is read by `read_hdf5` with the same variables, in whatever order the library enumerates the datasets: each has its dimensions (class, name, coordinate values, unit) in their order and all its elements, its unit and output format; the dimensions used by variables are known to the block. Needed: dimensions are known to the block as the variables have them, names without slash and backslash, and only repetition, sweep, matrix and partial dimensions. Violations: dimensions no variable uses are lost, as are name and comments of the block and the output format of dimensions; axes of derivatives and unnamed axes can be saved but not read; a dimension with a slash in its name cannot be saved; a backslash in a name comes back as slash; a variable `S11` besides a network `S` can overwrite its element on reading and vanish.", "quantifier": "all blocks, numbers of dimensions and variables, shapes, names, units, and all orders of enumeration of the datasets", "why_tests_cant": "The file format is bound to names, classes and attributes one by one, and the order of enumeration is that of the library; the round trip of single blocks does not tell which blocks come back unchanged.", "anchors": ["hftools/file_formats/hdf5/v_02.py: save_hdf5_handle, read_hdf5_handle, getvar", "hftools/file_formats/hdf5/hdf5.py: save_hdf5, read_hdf5"]}
{"id": "C72", "title": "HDF5 files of version 0.1 give back what was saved", "statement": "A block saved with any other version than 0.2 is saved in the format 0.1, is recognised as such and read with the same variables and elements, the same dimensions including those that no variable uses, units, comments (without blanks around them) and name (`None` if it reads so), in whatever order the library enumerates the two groups. Needed: dimensions are known to the block as the variables have them, no slash in names, classes which `hftools.dataset` exports, no unit that reads `none`. Violations: unnamed axes come back as repetitions; names with a slash can be saved but the file cannot be read; units reading `None` are lost; a variable whose dimension differs from that of the block gets the coordinate values of the block.", "quantifier": "all blocks, names, comments, versions other than 0.2, and all orders of enumeration of the groups", "why_tests_cant": "The classes and units are coded as strings with special values, and variables refer to dimensions by name; which blocks survive this is a statement about all names and classes.", "anchors": ["hftools/file_formats/hdf5/v_01.py: save_hdf5, read_hdf5", "hftools/file_formats/hdf5/hdf5.py: save_hdf5, read_hdf5"]}
{"id": "C73", "title": "Axis label and tick texts together tell the coordinates", "statement": "A label format made of text, `[]`, `{unit}` and `{default}` gives the label with prefix and unit at `[]` (`U` without unit), the unit, and frequency, time, length or the name of the dimension at `{default}`; whatever was set in which order, the last format, the last unit given (else the default one, a degree sign for `deg`) and the last name count. If the ticks are at most four decades apart, all ticks are divided by the power of ten of the SI prefix in the label, so that tick times prefix is the coordinate; the largest is shown between 1 and 1000, and every text is off by less than a thousandth of its last digit or half of the last of the given digits. Violations: a format given to the constructor raises with a unit and is forgotten without; units with a percent sign and the format `[^]` with a unit raise; without label the ticks are divided all the same; if the range becomes wider than four decades the old prefix stays in the label; different ticks can read the same.", "quantifier": "all label formats, units, names, sequences of settings, all lists of ticks and all coordinates", "why_tests_cant": "Label and ticks are made at different times from different inputs; that they fit together for every range, unit and order of calls is not seen from some plots.", "anchors": ["hftools/plotting/helper.py: UnitFormatter", "hftools/constants/si_units.py: _help_format_sci, si_exp_to_prefixes"]}
{"id": "C74", "title": "Four arrays become an array of two by two matrices", "statement": "hftools.math.make_matrix(a, b, c, d) for four arrays over any sweeps and repetitions, axes in any order, of equal length or length one where shared and none empty: the result has the axes of all four, then rows and columns of length two; at every coordinate the element in row i, column j is the element of a, b, c or d at that coordinate (converted to the dtype of a). Its determinant is a*d - b*c at every coordinate. Arrays whose lengths do not fit are refused. Not true: numbers which the dtype of the first array cannot hold are kept; empty sweeps are handled as in arithmetic.", "quantifier": "all arrays, shapes, orders of axes, element types and coordinates", "why_tests_cant": "Tests use arrays over one sweep with equal shapes; the claim is about all combinations of sweeps, orders and lengths.", "anchors": ["hftools/math.py:make_matrix", "hftools/dataset/arrayobj.py:make_same_dims_list", "hftools/dataset/arrayobj.py:dims_union"]}
{"id": "C75", "title": "Switch correction solves for the scattering parameters", "statement": "switch_correct(b, a) with matrices of incident waves a, none singular, and of reflected waves b over any sweeps gives S with S*a = b at every coordinate, and no other matrices have this property; if one matrix of a is singular there is no result. With waves put together by make_matrix, b1 = S11 a1 + S12 a2 and b2 = S21 a1 + S22 a2 hold in both measurements at every coordinate.", "quantifier": "all fields, sizes of matrices, stacks, shapes and coordinates; all eight waves", "why_tests_cant": "A test checks single matrices; the claim ranges over all stacks with different sweeps in a and b and all values.", "anchors": ["hftools/networks/spar_functions.py:switch_correct", "hftools/math.py:matrix_multiply", "hftools/math.py:inv", "hftools/math.py:make_matrix"]}
{"id": "C76", "title": "Setting small numbers to zero", "statement": "hftools.math.chop(x, t) changes no element by as much as t, keeps every number of magnitude t or more, leaves no other number below t, and is idempotent. hftools.utils.chop(x, rtol, atol) does the same with the larger of atol and rtol times the largest magnitude in the array, and for rtol up to one chopping twice is chopping once. Not true: that both accept arrays without elements.", "quantifier": "all arrays of real or complex numbers, shapes and tolerances", "why_tests_cant": "The tolerance depends on the largest element, so idempotence is a statement about all arrays; tests use single lists.", "anchors": ["hftools/math.py:chop", "hftools/utils.py:chop"]}
{"id": "C77", "title": "A block saved as SP file is the block again when it is read", "statement": "Let every variable of a block depend on one sweep only, or be a matrix with at most nine rows and columns that depends on it, let names and units be words, and let no name be like that of an element or have another meaning for the reader. If the block is written with save_spdata and the file is read with read_spdata and its default arguments, the result has exactly the variables of the block, the sweep, FILENAME and FILEINDEX. Matrices are matrices again, with every element at its place. Complex numbers are the same; real numbers and the sweep are the same up to the prefix of their unit, which the result has without prefix. Units of complex variables and of matrices are lost, a matrix with one row and column comes back as a plain variable, and plain variables with names of elements come back as a matrix. Comments that declare properties are written with the block, and for blocks without units every property with a value comes back as a variable without axes, with the unit it declares, beside the unchanged block.", "quantifier": "all blocks with any number of variables, points, rows and columns, all names, units and values, all comments, all conversions of numbers to text and back that restore them", "why_tests_cant": "The result depends on the interplay of six steps (columns, complex numbers, properties, units, standard names, matrices), each of which looks at all names at once; tests try a few files.", "anchors": ["hftools/file_formats/spdata.py: save_spdata, read_spdata", "hftools/file_formats/readbase.py: ReadFileFormat.do_file, read_file", "hftools/dataset/dataset.py: DataBlock.guess_units"]}
{"id": "C78", "title": "Properties of a file as variables", "statement": "values_from_property adds one scalar variable for each property that has a value and whose name is neither that of a variable nor of a dimension; it has the value and the unit of the property. All other variables, their units and all dimensions stay as they were, and the order in which the properties are stored has no influence on the variables. A property with the name of an element of a matrix in the block overwrites that element instead.", "quantifier": "all blocks, all collections of properties in all orders", "why_tests_cant": "The order of a dictionary is arbitrary and each assignment changes what later ones find.", "anchors": ["hftools/dataset/dataset.py: DataBlock.values_from_property", "hftools/dataset/dataset.py: DataBlock.__setitem__"]}
{"id": "C79", "title": "What plot draws", "statement": "Plotting one array draws it against the coordinates of its first dim: exactly one curve for every index of the other dims, in row-major order, and on each curve a point for every coordinate whose height is the projected element (db, db10, mag, mag_square, rad, deg, real, imag have the meaning of their names); two arrays are drawn against each other, a one-dimensional x serving every curve and an x of the shape of y serving curve by curve; without projection complex arrays are drawn in the complex plane whatever x is; arrays of different first lengths are refused and change no label. After any sequence of plots the default x label is the first dim of the first array drawn on its own, and the unit passed on to the y label is that of the last array with a unit that was drawn. Format texts do not matter, except that byte strings (plain literals of Python 2) make the array be drawn against the point number with its unit on the x axis, or fail on projections; matrices are always refused; decibels and degrees are labelled with the unit of the data; the axes unity and wrapunwrapeddeg do not project; x and y of several dims are paired by position and not by name.", "quantifier": "all arrays of any number of dims, all projections, all axes states and all sequences of plot calls", "why_tests_cant": "which curve belongs to which index depends on shapes of any rank, and labels on whole histories of calls; tests plot a few small arrays and look at nothing but the absence of exceptions", "anchors": ["hftools/plotting/helper.py: HFToolsAxes.plot, HFToolsAxes._plot_helper, _projfun, dBAxes, WrapUnwrapDegAxes, UnityAxes", "hftools/dataset/arrayobj.py: remove_tail"]}
{"id": "C80", "title": "Settings loaded from a file are found from the inside out", "statement": "Loading a configuration file whose document is a mapping, without aliases, succeeds. Looking up a key in any dictionary of the configuration gives what the innermost mapping of the file around that place says that has the key, however deep it is and whether or not there are lists between; the last line counts if a mapping has a key more than once; there is no value exactly if no mapping around has the key. Every scalar of the file is found on the way it has in the file. A document that is empty, a scalar or a list is refused with an AttributeError, an alias without anchor with an exception. Violations: what is assigned to the configuration itself after loading is not seen by any dictionary in it, whatever the file is, because the dictionaries refer to the mapping that was read and not to the configuration; a dictionary with an anchor inherits, also where it is written, from the place of its last alias.", "quantifier": "all documents of any depth, with any keys, lists and anchors; all ways through them, all keys", "why_tests_cant": "Parents are set while the tree is built, by assignments that also touch objects shared with other places; documents have any depth and shape.", "anchors": ["hftools/file_formats/config.py: LexicalLoader.construct_mapping, LexicalLoader.construct_sequence, LexicalConfig.reload_settings, LexicalScopeDict.__getitem__, LexicalScopeDict.update, find_next_dict"]}
{"id": "C81", "title": "Settings written to a file and read back", "statement": "A configuration that is written to a file and loaded again has dictionaries at the same places, and looking up a key in these fails in both or in none and gives the same values: plain scalars of python (null, truth values, numbers, texts) come back unchanged whatever the text looks like to the parser, lists and dictionaries with all that is in them, in whatever order the keys are written. Violations: values with unit, time intervals and dates come back as texts, always, although the parser would recognise the text (it is put in quotes); a value without unit comes back as plain number; a file that was written with a path anywhere in the settings cannot be loaded.", "quantifier": "all configurations of any depth loaded from files without aliases, all configurations changed by assignments to them, all orders of keys, all sets of patterns for recognising scalars", "why_tests_cant": "Which quotes are needed depends on the text and on all patterns; the test of the repository writes such a file and reads it, but compares nothing.", "anchors": ["hftools/file_formats/config.py: LexicalConfig.write, LexicalScopeDict.convert_to_standard, LexicalScopeList.convert_to_standard, sivalue_representer, timeintervall_representer, timestamp_representer, path_representer, overrideint"]}
{"id": "C82", "title": "Clock times in settings", "statement": "A setting that begins with a clock time (hh:mm or hh:mm:ss) is read as the next moment at which the clock shows that time, today if it is not past and tomorrow otherwise; exactly one such moment exists and it is less than 24 hours away. This also holds where the parser takes the text for a number with base 60. Loading the settings again later gives the same moment as long as it is not past, and one at least a day later otherwise. Hours from 24, minutes and seconds from 60 are refused. Whole numbers are read as numbers. What follows the clock time in the text is ignored, so that a text beginning with a clock time cannot be a setting.", "quantifier": "all moments, all times of day, all texts after them", "why_tests_cant": "The result depends on the moment the file is loaded; the test of the repository fails for some moments of the day.", "anchors": ["hftools/file_formats/config.py: time_constructor, overrideint, regtime"]}
{"id": "C83", "title": "A CITI file as read_citi gives it, and saving and reading matrices", "statement": "Reading a CITI file gives, besides the name and the index of the file: every sweep under its name (by the table of names if that is free) with its coordinates and the unit that belongs to its name; for every complete collection of columns called S[i,j] or Sij (those without brackets count if there are both) one matrix S over the sweeps with the numbers of the file at the places the digits say, and none of these columns; every other column under its name with its numbers; a variable for every comment `name: value` whose name is free; and nothing else. A block whose variables all have the same sweeps, saved with save_citi and read again, has the same variables with the same values over the same sweeps, the matrices being matrices again.", "quantifier": "all files the reader can parse, all names, types, sweeps, comments and orders of columns; for the round trip all blocks with common sweeps, matrices of more than one and at most 9x9 elements with names of letters, any numbers that survive being written", "why_tests_cant": "Which columns become which matrix depends on all names of the file at once, on two patterns that are tried one after the other, and on the renaming before; a test has a few files, while the claim is about every set of names and every order.", "anchors": ["hftools/file_formats/citi.py: ReadCITIFileFormat, read_citi, save_citi, format_citi_block", "hftools/file_formats/readbase.py: ReadFileFormat.do_file, ReadFileFormat._combine_matrices, match_matrix_elements", "hftools/file_formats/common.py: normalize_names", "hftools/dataset/dataset.py: DataBlock.values_from_property, DataBlock.guess_units"]}
{"id": "C84", "title": "Touchstone files read with every step of the reader", "statement": "read_touchstone on a well-formed file gives a block with exactly one matrix variable named by the option line (S, Y, Z, G or H), over the frequency axis in hertz (the numbers of the file times the prefix) and two matrix axes, whose element (i, j) at every frequency is the number pair of that record (row by row for one port and from three ports on, column by column for two ports) converted by the format of the option line; a scalar Z0 in ohms, equal to the number of the option line; and, when noise records follow, Rn (times Z0), Fmin (10**(x/10)) and Gopt, over the same frequency axis exactly when the noise frequencies agree with those of the matrix within numpy.allclose, over an axis freqn of their own otherwise. Comments of the form name: value whose name is not yet in the block come back as scalar variables under their canonical names and no other variable or axis appears; file index and name are added by read_file. Saving a block of any number of ports and reading the file returns the same frequencies and the same matrix for one and two ports, the transposed matrix from three ports on, and always Z0 = 50.", "quantifier": "every list of lines read as comments, one option line and records of one, two or more ports with at least two frequencies (one when two noise records follow) in increasing order and any number of noise records, every set of comments not clashing with the names of the file, every conversion of numbers; every saved block for the round trip", "why_tests_cant": "the result depends on the number of ports, on how the records are spread over lines, on where noise records begin, on the tolerance that joins the frequency axes, and on what comments say; a few sample files settle none of these", "anchors": ["hftools/file_formats/touchstone.py: ReadTouchstoneFileFormat, proc_data, proc_info, save_touchstone, read_touchstone", "hftools/file_formats/readbase.py: ReadFileFormat.read_file, ReadFileFormat._combine_matrices", "hftools/file_formats/common.py: Comments, make_col_from_matrix"]}
{"id": "C85", "title": "MDIF files read with every step of the reader", "statement": "Reading an MDIF file gives one block for every BEGIN/END group, in the order of the file, with the name and the comments of the group. In each block the first column becomes the sweep and every VAR setting a partial sweep, under their names (by the table of names if that is free) with the unit that belongs to the name; every complete collection of columns S[1,1], S[1,2], ... becomes one matrix S over the sweep and every complete V[1], V[2], ... one vector, with the numbers of the file at the places the indices say; a complete collection S11, S12, ... becomes a matrix in the same way and none of its columns stays; every other column and every attribute line comes back under its name with its numbers and the unit that belongs to the name; a comment `name: value` whose name is free becomes a scalar; and there is no other variable or dimension. Saving a block as an MDIF file and reading it so gives one block for every combination of the sweeps but the first, with every variable of the saved block under its name and with its values there: matrices again as matrices, columns over the first sweep, attributes as scalars, the coordinates of the other sweeps as partial sweeps, in the first block the time of saving if it reads as a value, and nothing else.", "quantifier": "all files the reader can parse, with any number of blocks, columns, rows, settings, attributes and comments, and all names; in a block elements with brackets or elements with digits become matrices, not both; for saving, all blocks that can be saved whose matrices have names of letters, at most nine rows and columns and more than one element, and whose names no step of the reader changes", "why_tests_cant": "which columns become which matrix or vector depends on all titles of the block at once, on two different mechanisms that run one after the other with renaming, units and properties in between; sample files settle a few sets of titles, the claim is about every one of them", "anchors": ["hftools/file_formats/mdif.py: ReadMDIFFileFormat, match_matrix_names, is_matrix_name, is_vector_name, read_mdif", "hftools/file_formats/readbase.py: ReadFileFormat.do_file, ReadFileFormat._combine_matrices", "hftools/file_formats/common.py: normalize_names", "hftools/dataset/dataset.py: DataBlock.values_from_property, DataBlock.guess_units", "hftools/file_formats/mdif.py: save_mdif"]}
{"id": "C86", "title": "Arranging figure windows on the screen", "statement": "Arranging the figures moves every window exactly once, in the order of the figures; a window that is not larger than the screen ends up completely inside of it and a larger one at its edge. Windows of one height of which any two fit beside each other are laid in layers: each beside the one before if there is room, else at the left edge below it, else in a new layer with an offset of ten; the windows of a layer keep the gaps asked for and none overlap, and a new layer is begun only when the one before is full. The call ends whenever each window fits at the offset by its width or, below the gap, by its height; a call with this offset ends only then. (The documented pattern without overlap does not hold in general: with one window in a row, with different heights, and in the third layer windows cover others.)", "quantifier": "all numbers and sizes of windows, all screen sizes, gaps, offsets and choices of screen", "why_tests_cant": "where a window goes depends on the sizes of all windows before it through the running position and row height; tests fix a few lists of windows, while no overlap and ending are claims about every list", "anchors": ["hftools/plotting/helper.py: arrange_figures, move_fig, fig_fits_w, fig_fits_h"]}
{"id": "C87", "title": "Least squares at every coordinate", "statement": "hftools.math.lstsq(A, b) for stacks of matrices A with m rows and right hand sides b with m rows (matrices or vectors), over any sweeps and repetitions that can be broadcast, gives an array with the axes of both in which, at every coordinate, each column has the smallest sum of squared errors of all vectors; the errors are orthogonal to the columns of A; if the equations can be fulfilled they are; if the columns of A are independent nothing else is as good. For square regular matrices the elements are those of solve_Ab. Different numbers of rows are refused. Violations: the argument squeeze has no effect; the dim of the rows of the result is that of the rows of A, so that with more equations than unknowns it has more coordinates than the axis has elements.", "quantifier": "all stacks of matrices of any size over the real or complex numbers, all right hand sides, all shapes and orders of axes, all coordinates", "why_tests_cant": "Tests solve for single matrices of small size; that every matrix of a broadcast stack is solved with its own right hand side, and that nothing is better, concerns all shapes and all vectors.", "anchors": ["hftools/math.py: lstsq", "hftools/math.py: broadcast_matrices", "hftools/math.py: firstelement", "hftools/math.py: solve_Ab"]}
{"id": "C88", "title": "Values, percentages, intervals and dates without quotes in configuration files", "statement": "A text without quotes in a configuration file that YAML does not itself take for a number, date or other value is recognised by its form: a number, blanks and a prefix, a unit, both or nothing is a value with unit; a number with %, ppm or ppb a percent value; amounts of days, hours, minutes and seconds in this order, each at most once and at least one, an interval; dddd-dd-dd dd:dd a date; dd:dd and anything after it a time; everything else is a text. No text has two of these forms, so it does not matter in which order they are tried. A value is the number times the power of ten of its prefix, with its unit; a percent value the number times 1/100, 1e-6 or 1e-9; an interval the sum of its amounts in seconds; a date what its digits say if it exists, and else a ValueError. What is recognised as a value, percent value or interval can always be read. Violations: `5 m` is read as 5/1000 without unit, not five metres; a text that begins like a date and goes on (`2014-01-02 12:30 first run`) is taken for a date and raises a ValueError, so that the file cannot be loaded.", "quantifier": "all texts without quotes, all numbers with any digits, signs and exponents, all prefixes and units, all intervals and dates", "why_tests_cant": "the patterns are tried on every unquoted text of a file and match greedily with backtracking; that no text is claimed by two of them and that the groups always hold what is meant concerns all texts", "anchors": ["hftools/file_formats/config.py: convert_si_value, SIValue", "hftools/file_formats/config.py: reg_si_value, reg_percent_value, timeintervallpattern, regdatetimeshort, regtime", "hftools/file_formats/config.py: sivalue_constructor, percentvalue_constructor, timeintervall_constructor, shortdatetime_constructor", "hftools/file_formats/config.py: add_implicit_resolver calls at module level"]}
{"id": "C89", "title": "Printing a block shows everything in it", "statement": "report(), str() and repr() of a block give the name of the block, one row for every dimension and one row for every variable, in their order. The row of a variable has its name, its unit in brackets and its shape; the row of a dimension with numbers has its name, the number of its values and its smallest and its greatest value with prefix and unit (or, if these are switched off, its unit), that of another dimension its type. Each table is aligned: all rows are equally wide, each column is as wide as its longest text and stands at the same place in all rows, names at the left and numbers at the right. The tables stand below each other if they are together wider than the width asked for, and else side by side, where all lines are equally wide and the shorter table is filled up. Splitting the text at its line ends gives these lines. With report_minmax switched off a report can always be made. Violations: a block with a dimension without values, with a unit that contains a blank, or with a value that has no prefix (1e24 and more) cannot be printed at all; the unit of integer dimensions is not shown; lines side by side can be three characters wider than asked for.", "quantifier": "all blocks with any numbers of dimensions and variables, all names, units, shapes and values, all settings and widths", "why_tests_cant": "tests print one block and look at nothing but that it can be printed; column widths depend on all rows and the layout on the widest rows of both tables, and every block must be printable", "anchors": ["hftools/dataset/dataset.py: DataBlock.report, ivar_report, depvar_report, format_table, __str__, __repr__", "hftools/constants/si_units.py: SIFormat, format_number"]}
{"id": "C90", "title": "Selecting with a boolean mask over several axes", "statement": "Let mask be a boolean array over some of the dims of a, in any order, other than exactly one. Then a[mask] replaces the axes of the mask by one new anonymous axis at the place of the first of them; it has one element for every position where the mask is true, in row-major order of the mask, and holds there the slices of a at that position; all other axes keep their order. With a mask over all dims these are the elements of a where the mask is true, in the order of a. The name of the new axis differs from those of all anonymous axes of a, also after earlier selections. Axes of other lengths are an IndexError. An anonymous dim whose name begins with ANON and does not go on with digits makes the selection a ValueError. a[mask] = v sets exactly the elements where the mask is true if the dims of the mask are the first dims of a in the same order; with the dims in another order it goes by position, and for square matrices sets the transposed elements without complaint, not those which a[mask] reads.", "quantifier": "all arrays with any dims and lengths, all masks over any subset of the dims in any order, all numbers of true elements, all names of anonymous dims", "why_tests_cant": "The place, name and order of the new axis depend on which dims are in the mask, in which order, and on all dims of the array; tests try masks over one or two axes.", "anchors": ["hftools/dataset/arrayobj.py: _hfarray.__getitem__, get_new_anonymous_dim"]}
{"id": "C91", "title": "Reading sweeps of the muwave toolbox", "statement": "read_muwave_matlabdata of one file with a sweep of S-parameter measurements, which all have an index, the same quantities in their state, the same textual properties, equal shapes and either all or none of them covariances, gives a block with exactly these variables: Index, every quantity of the state, every property and Z0 with one value per measurement over a sweep INDEX1, in the order of the measurements, and S (and Scov) with the matrix of each measurement at each frequency; S has the frequency first. Axes of length one are dropped, so one measurement has no axis INDEX1. A Date in the format of the toolbox becomes a date and otherwise stays a text; an empty property stays empty. With drop_empty exactly the variables which are empty for all measurements are left out, the others are unchanged. The frequencies are those of the first measurement, also if those of others differ. If the first of the files that cannot be read is a MATLAB file of another program the answer is a NameError, and no match at all is an IndexError. Violations: there are sweeps with parameters of another type than S that are an AttributeError, sweeps without index or with a number among the properties that are a ValueError, two files with two measurements each that are a ValueError, and three files for which the sweep over the files and the one over the measurements both get the name INDEX1.", "quantifier": "all numbers of measurements, frequencies and ports, all names and values of the state and of the properties, all orders in which dictionaries list their keys", "why_tests_cant": "What arrives where depends on the number of measurements and names and on hashing; the tests of the repository do not read a file of this format with several measurements.", "anchors": ["hftools/file_formats/muwave_mat.py: build_measmnt, build_meas_state, build_data, read_single_muwave_matlabdata, read_muwave_matlabdata", "hftools/file_formats/merge.py: merge_blocks"]}
{"id": "C92", "title": "What the grids of Smith charts and polar plots show", "statement": "On the Smith chart exactly those passive impedances lie on a visible line whose resistance is 0, 1/3, 1 or 3 or whose reactance is 0, ±1/3, ±1 or ±3; the halves smith_upper and smith_lower show exactly those of them with reactance >= 0 or <= 0. The inverse chart shows the same values of conductance and susceptance. A polar grid shows, in the half plane it is for, exactly the magnitudes 0, 0.2, ..., 1 and the angles that are multiples of 45 degrees up to the unit circle; outside there is nothing but the unit circle (and 2e-7 at the border). This holds for reactances from -1e15 and susceptances up to 1e15 in magnitude. A half of the admittance grid has in addition the outline of the other half. smith_polar shows its polar half only: the white disk of the polar grid, drawn later, hides the Smith half.", "quantifier": "all passive impedances and admittances (up to 1e15), all complex numbers for polar grids, all modes", "why_tests_cant": "Whether a point is on a visible line depends on exact angles of arcs, on the sense in which they are drawn and on the order of the patches; comparing images checks neither.", "anchors": ["hftools/plotting/smith.py: smith_grid, polar_grid, smith, inv_smith, smith_lower, smith_upper, smith_polar, MyCircle.get_artist, MyLine.get_artist"]}
{"id": "C93", "title": "What copies, views and derived blocks share", "statement": "Whatever a program does with arrays and blocks: a copy of a block, an array copied or made from a dimension, looks like the original and is independent of it for ever: steps given only things of one side (existing ones or made later from them) never change what can be seen of the other side (elements, dims, units, formats, names, dimensions, comments). A view of a block always has the elements of the block it was made from, and its comments until one of the two is given new ones (which belong to that one only), but its own variables, dims, units and formats. A transposed, squeezed or indexed array shows at any later time what the same operation gives for the array it was made from. Assigning an element changes exactly what is at that place in memory: no other element of the array, and no element elsewhere; a[...] = c uses the elements c had before even if both overlap; d.S11 = v changes the stored matrix in place. A block returns the very array that was stored. keep_variables (which gives the same array objects) and filter change nothing that exists, if no variable has the name of a dimension or of an element of another one. Otherwise they do: with a matrix S and a variable S11 both write S11 into the matrix of the block they read, keep_variables with the name of a dimension replaces that dim in the arrays of the old block, and writing to a variable of a filtered block that does not depend on the filtered dimension changes the old block.", "quantifier": "all programs (histories of array and block operations, also failing ones), all arrays, masks, names and indices", "why_tests_cant": "Independence is a statement about all later operations on either side in any order; a test checks a few writes after one copy.", "anchors": ["hftools/dataset/dataset.py: DataBlock.copy, view, keep_variables, filter, __getitem__, __setitem__, replace_dim, rename, DataDict.copy, DataDict.view", "hftools/dataset/arrayobj.py: _hfarray.__new__, copy, view, transpose, squeeze, __getitem__, replace_dim", "hftools/file_formats/common.py: Comments.copy"]}
{"id": "C94", "title": "Labels of the axes of every projection", "statement": "For each of the sixteen projections (plain, dB, magnitude, real, imaginary, complex, group delay, degrees, radians, ...) and every sequence of `set_xlabel_fmt`, `set_ylabel_fmt`, `set_xlabel_unit`, `set_ylabel_unit`, plots and drawings, nothing raises, and drawing shows on each axis the last format of that axis, filled with the last unit given to it by a setter or by the data plotted and with the name of the first dimension plotted, whatever was done to the other axis; with SI prefix on all axes but the y axis for dB; formats and units read back are the last ones; labels change only by drawing. Complex numbers on axes that draw the imaginary against the real part give their unit to both axes. Ticks of dB axes are shown as they are, all with the least number of digits that is right to a thousandth, at most three. Formats are made of text, `[]`, `{unit}` and `{default}` (on dB axes of text and `[]` or `%(unit)s`), units without percent sign. Violations: dB, degree and other axes take the unit of the data, so that decibels are labelled as volts; axes for angles forget a unit with the next format; a format from which no label can be made is stored all the same, and then every later format is refused; formats with `[]` and `%(unit)s` and units with `%` are accepted on dB axes and raise when drawn, `{default}` is shown literally there; an empty format leaves the old label; a second dimension changes the unit but not the name.", "quantifier": "all projections, all sequences of settings, plots and drawings, all formats, units, names and tick positions", "why_tests_cant": "The label depends on the whole history of settings and plots on both axes, on class-specific defaults and on the ticks; tests look at single calls.", "anchors": ["hftools/plotting/helper.py: SimpleUnitFormatter, UnitFormatter, HFToolsAxes.plot, set_xlabel_unit, set_ylabel_unit, set_xlabel_fmt, set_ylabel_fmt, get_xlabel_unit, get_ylabel_unit, get_xlabel_fmt, get_ylabel_fmt, dBAxes, dB10Axes, MagAxes, MagSquareAxes, XSIAxes, ComplexAxes, GroupDelayAxes, DegAxes, RadAxes, xlabel_fmt, ylabel_fmt"]}
{"id": "C95", "title": "Positions of figure windows, saved and set again", "statement": "get_current_figure_position(i) gives the coordinates of the window of figure i, whatever its size and also for negative coordinates; it raises KeyError exactly if the figure is not open and ValueError exactly if the window is placed by its right or lower edge. get_figure_positions() lists every open figure once, in the order of the figures, and raises ValueError if any one of them is placed by the right or lower edge. set_figure_positions(list) brings every figure named before the first figure that is not open to the last position given for it there (the nearest position where it is wholly on the screens; the edge if it is larger than them), changes no other window and no size, and raises KeyError exactly if a figure that is not open is named. Positions saved with get_figure_positions and set later bring every window of that time to where it was, although windows were moved, resized or placed by other edges and figures were opened in between, and leave the other windows alone. A window comes to the saved position exactly if it is wholly on the screens there or begins at their edge: windows with negative coordinates (a screen to the left of the first one) are not put back, and after a figure was closed the figures after it in the list stay where they are.", "quantifier": "all tables of open figures, sizes, coordinates, edges, sizes of the screens, lists of positions, and states of the windows at the time of setting", "why_tests_cant": "Any number of figures with any size and coordinates, through the text of the window manager and back, with any change of the windows in between; and it needs a Windows desktop with several screens to run at all.", "anchors": ["hftools/plotting/helper.py: get_current_figure_position, get_figure_positions, set_figure_positions, move_fig"]}
{"id": "C96", "title": "Files that have been saved are recognised when they are read", "statement": "read_data, which guesses the format of a file from its lines, takes every file written by save_touchstone for a Touchstone file and every file written by save_citi for a CITI file, whatever the numbers, names and (one-line) comments are. A file written by save_mdif is taken for MDIF if some variable has two or more sweeps and the names of the sweeps consist of letters, digits, underscores and dots, even if the writing was ended by an exception after the first line of settings. A file written by save_spdata is read as SP data if the names and the printed coordinates of the dimensions do not begin with VAR, CITIFILE, MATLAB or #. Violations: an MDIF file of a block with at most one sweep is taken for SP data, for all such blocks whose numbers are printed as usual and whose single values have names without blanks, also if it has been saved without error; so is one whose sweep has a name like V-g; SP data over a sweep named VAR or CITIFILE can be taken for MDIF or CITI; a comment with a line break can make a Touchstone file look like a CITI file.", "quantifier": "all blocks, comments, formats of numbers, and orders in which python enumerates the sets of dimensions", "why_tests_cant": "A test saves one block and reads it again; whether the guess is right depends on every line written before the deciding one, for all names and values.", "anchors": ["hftools/file_formats/__init__.py: read_data, isfile", "hftools/file_formats/touchstone.py: save_touchstone, is_touchstone", "hftools/file_formats/citi.py: save_citi, is_citi", "hftools/file_formats/mdif.py: save_mdif, is_mdif", "hftools/file_formats/spdata.py: save_spdata"]}
{"id": "C97", "title": "Where polar diagrams put the points", "statement": "On polar axes a complex array is drawn in the complex plane: exactly one curve for every index of the dims after the first, in row-major order, with one point for every position of the first dim, and the point given by its angle and radius lies exactly at the element (radius not negative, angle above -pi and at most pi); an x that is given besides it and format texts change nothing. A real array over a sweep is drawn at x + i*y, where x is the coordinates of its first dim or the one-dimensional array over that dim that is given. Real arrays given with an x of several dims, or over another dim, are refused, even an array given with itself; matrices are refused; an array without dims (an array of numpy) is drawn with the numbers of its points as angles, so the angles of its elements are lost.", "quantifier": "all arrays of any number of dims and any values, all x, all format arguments", "why_tests_cant": "It is a statement about every complex value (all quadrants, the branch cut, zero) and every shape; tests draw single arrays and compare no coordinates.", "anchors": ["hftools/plotting/helper.py: ComplexPolarAxes.plot, cplx_polar_projection", "hftools/dataset/arrayobj.py: remove_tail, __add__, dims_union"]}
{"id": "C98", "title": "A block that is saved comes back from read_data", "statement": "Saving a block and giving the file to read_data, without naming the format, gives the data back. Touchstone (n ports, two or more increasing frequencies, one-line comments): the same frequencies in hertz and the same matrices, transposed from three ports on. CITI (variables and matrices that all have the same sweeps): exactly the variables saved, with their sweeps, shapes and numbers. MDIF (a variable over two or more sweeps of plain names): one block for each position of the sweeps after the first, in order, with all variables and matrices and their values at that position. SP data over one sweep: all variables, complex ones and matrices included, and the sweep. The ends of the lines do not matter: with those of Windows or Macintosh, any text file gives the same as with those of Unix. Violation: an MDIF file of a block with at most one sweep, which read_mdif can read, is handed to the reader of SP data by read_data.", "quantifier": "all blocks of the kinds named, of any size and with any values that the format of numbers keeps; all comments without line breaks", "why_tests_cant": "Tests save small blocks and call the reader of the same format; that the guess and the reader work together for all blocks, names and comments needs a proof over all files that can be written.", "anchors": ["hftools/file_formats/__init__.py: read_data", "hftools/file_formats/touchstone.py: save_touchstone, ReadTouchstoneFileFormat", "hftools/file_formats/citi.py: save_citi, ReadCITIFileFormat", "hftools/file_formats/mdif.py: save_mdif, ReadMDIFFileFormat", "hftools/file_formats/spdata.py: save_spdata, ReadSPFileFormat"]}
{"id": "C99", "title": "Characters outside of ASCII in saved files", "statement": "Files of ASCII text are the same bytes whatever the locale is and come back from every reader and from read_data. MDIF files and SP data come back character by character from their own readers in every locale, files of settings too; where the locale has Windows-1252, everything that can be written comes back from all readers and from read_data. A text is written completely exactly if the encoding has all of its characters (Windows-1252 for SP data, the locale for the others); otherwise an exception is raised, the former content of the file is gone, and the file holds exactly the lines before the one that cannot be encoded. Texts converted to bytes and back by cast_bytes and cast_unicode have a question mark for exactly the characters that are not in Windows-1252. Violations in a locale with UTF-8: Touchstone and CITI files are written in UTF-8 but read as Windows-1252, so what is read is the text saved only if that is ASCII (a degree sign comes back as two characters), and reading fails for every text with a character that has one of the bytes 81, 8d, 8f, 90, 9d in UTF-8, such as an A with acute accent; SP data, written in Windows-1252, cannot be read by read_data at all if a character outside of ASCII stands between ASCII characters, although read_spdata reads them.", "quantifier": "all texts, all locales whose encoding is exact and extends ASCII (UTF-8 and Windows-1252 in particular), all formats that are text", "why_tests_cant": "Tests run in one locale with a few characters; the property ranges over all texts and the 256 bytes, and over every point where writing can be ended by an exception.", "anchors": ["hftools/file_formats/readbase.py: ReadFileFormat.read_file", "hftools/file_formats/__init__.py: read_data", "hftools/file_formats/spdata.py: save_spdata, read_spdata", "hftools/file_formats/mdif.py: save_mdif, ReadMDIFFileFormat.read_file", "hftools/file_formats/touchstone.py: save_touchstone", "hftools/file_formats/citi.py: save_citi", "hftools/file_formats/config.py: LexicalConfig, Config", "hftools/py3compat.py: encode, decode, cast_unicode, cast_bytes"]}
{"id": "C100", "title": "Settings in memory and in their files over a session", "statement": "Config and LexicalConfig objects: at any time the settings of an object are what its file said when it was read last, with the assignments and deletions made on the object since, in their order; nothing else changes them, neither other objects nor writing nor changes of the file. Reading again forgets all changes and gives exactly what the file says at that time. Settings that were written (to the file of the object or to another one) come back, each value as it is read from a file, in every object of either class that reads this file later, as long as nobody else writes to it; write changes only this one file and no object, and nothing at all if the file cannot be opened for writing. A missing file is reported by a message and gives no settings. Exactly dictionaries can be read, by Config also lists of pairs and the empty text; construction that fails leaves nothing behind. Violations: reading a file that YAML does not accept raises an exception and the settings the object had are gone; if one value cannot be represented, write raises an exception but has emptied the file, so that its former content is lost and every later attempt to read it fails; a path among the settings is written without complaint, but the file can then not be read.", "quantifier": "all sessions: any number of objects of both classes, any files and any sequence of constructing, assigning, deleting, renaming, reading, writing and changes of files by other programs", "why_tests_cant": "the settings depend on the whole history of the objects and of the files, which other objects and programs change in any order", "anchors": ["hftools/file_formats/config.py: LexicalConfig.reload_settings, LexicalConfig.write, Config.reload_settings, Config.write, LexicalScopeDict.update"]}
{"id": "C101", "title": "Conversion of arrays of two-ports keeps the network at every coordinate", "statement": "Converting an array of two-ports (any number of sweeps and repetitions, rows i and columns j last) to another representation keeps axes, order and shape, and at every coordinate the result describes exactly the network which the array described there. The conversion succeeds if the network at every coordinate has parameters in the representation asked for, and if at a single coordinate it has none there is a LinAlgError and no result. Converting back to the same representation and impedance gives every element again. Exception: if a repetition comes before a sweep, every conversion except between Z and Y puts the results in the wrong places: for equal lengths the networks of repetition p at point q and of repetition q at point p are silently exchanged, for different lengths there is a ValueError.", "quantifier": "all arrays of two by two matrices over any field, all axes, all coordinates, all pairs of representations, all nonzero reference impedances", "why_tests_cant": "Ranges over all orders and lengths of axes and over all matrices; the exchange of networks gives no error.", "anchors": ["hftools/networks/multiports.py: convert, _MultiPortArray.__init__, make_matrix, ZArray.__init__, YArray.__init__", "hftools/math.py: matrix_multiply, inv", "hftools/dataset/arrayobj.py: dims_union"]}
{"id": "C102", "title": "Cascading and de-embedding of arrays of two-ports act at every coordinate", "statement": "The cascade of two arrays of two-ports, with any sweeps and repetitions in any order, some shared, some only in one of them, has the axes of both, and at every coordinate it is the connection in cascade of the two networks at that coordinate; it is of the class of the first array and exists if the cascade exists wherever networks of both meet. De-embedding an array of fixtures on the left, on the right or on both sides gives at every coordinate the network that connected to the fixture gives the measured one, so that the factors of a cascade are found again wherever the fixture transmits. The switch correction of b with a gives at every coordinate the matrix whose product with a is b, and is refused with LinAlgError if a is singular at a single coordinate. Exception: if an axis is empty in one array while the other has it with length one or not at all, cascading and de-embedding raise ValueError instead of giving an empty array.", "quantifier": "all arrays of two by two matrices over any field, all axes and their orders and lengths, all coordinates, all classes and nonzero reference impedances, any behaviour of division by zero", "why_tests_cant": "Ranges over all combinations of axes of two arrays and over all matrices; a wrong alignment or a sign error in one element shows only in the values at some coordinates.", "anchors": ["hftools/networks/spar_functions.py: cascadeS, deembedleft, deembedright, deembed, switch_correct", "hftools/networks/multiports.py: _MultiPortArray.cascade, _MultiPortArray.deembed", "hftools/dataset/arrayobj.py: make_same_dims, make_same_dims_list"]}
{"id": "C103", "title": "Networks with any number of ports convert between Z and Y, and with S only for two ports", "statement": "Converting an array of n-port impedances to admittances or admittances to impedances (YArray(z), ZArray(y)), for any n, keeps the axes and their order and gives at every coordinate parameters of the same network: exactly the same port voltages and currents satisfy v = Z i as satisfy i = Y v. It succeeds if and only if every network in the array has such parameters, and otherwise raises LinAlgError and gives no result. Converting back gives every element of the array one began with. Converting to the class the array has already, at the default impedance, changes nothing. For n = 2 the conversion with S-parameters is that of C101. Not as documented ('This model may be of any dimension'): for n = 1 and every n > 2, converting to S-parameters, from S-parameters, or to another reference impedance always raises an error, also for networks which have such parameters (e.g. matched resistors, with S = 0).", "quantifier": "every field of numbers, every number of ports n, every array of n by n matrices with any sweeps and repetitions, every reference impedance, every source and destination class among Z, Y and S", "why_tests_cant": "Tests use two-ports (and a few Z/Y matrices); that the identity of networks holds for every n and every matrix, and that the S conversion fails for every matrix with n other than 2, cannot be enumerated.", "anchors": ["hftools/networks/multiports.py:convert", "hftools/networks/multiports.py:ZArray", "hftools/networks/multiports.py:YArray", "hftools/networks/multiports.py:SArray"]}
{"id": "C104", "title": "The names a block offers for completion can be read", "statement": "dir(block) offers every independent variable and every variable of the block exactly once among its variable names, and each can be read from the block. For a matrix-valued variable with at most nine rows and nine columns it offers one name per element, made of the name of the variable, the row and the column counted from one, and reading that name gives exactly that element along every sweep. If all matrices of the block are of this kind and their names do not end in a digit, every offered name that is no attribute of the class can be read. The code breaks this in three ways: for a matrix with ten columns the name offered for the tenth column reads the first column; for a matrix whose name ends in a digit the offered element names raise; for a matrix with more than ten rows or columns no element is offered.", "quantifier": "Every block, with any number of variables, names, sweeps and matrix sizes.", "why_tests_cant": "The tests look at one block; which names are offered and what they read depends on the sizes and the names of all the matrices in it.", "anchors": ["hftools/dataset/dataset.py: DataBlock.__dir__", "hftools/dataset/dataset.py: DataBlock.allvarnames", "hftools/dataset/dataset.py: DataBlock.__getitem__"]}
{"id": "C105", "title": "Time stamps sort as the times do", "statement": "The text of a time stamp made at one local time precedes the text of another one as strings exactly when the first time precedes the second, to the second for plain stamps and to the millisecond (cut off, not rounded) for stamps of high resolution. Two stamps are equal exactly when the times agree to that resolution. Plain stamps are always 15 characters, stamps of high resolution 19, and the latter begin with the former.", "quantifier": "Every two valid local times with a year of four digits.", "why_tests_cant": "A test stamps the time at which it runs; the order must hold for every two times, across ends of minutes, days, months and years.", "anchors": ["hftools/utils.py: timestamp"]}
{"id": "C106", "title": "Printing comments shows every property, in order and in full", "statement": "Printing the comments of a block gives nothing exactly if no property was found in them. Otherwise there are three lines of heading and then one line for each property, sorted by name, each property exactly once. A line has the whole name, the whole value (without the white space around it if it is a text) in a column that begins one behind the longest name, and nothing is cut off. If the longest name has at least three characters and the values fit into the width, all lines are equally long. The number of printed lines is that of the table if no name and no value contains the end of a line. For names shorter than three characters the heading is longer than the other lines.", "quantifier": "Every set of properties with distinct names, every width.", "why_tests_cant": "The widths of the columns depend on all names and values together; a test prints a few comments only.", "anchors": ["hftools/file_formats/common.py: Comments.table", "hftools/file_formats/common.py: Comments.__repr__"]}
{"id": "C107", "title": "Root of the sum of squares along named dimensions", "statement": "rss over any number of dimensions, given by name, object or position, removes exactly these and gives at every remaining coordinate the number that is not negative and whose square is the sum of the squared magnitudes of the elements that agree in the remaining coordinates. Taking it over some dimensions and then over others is the same as taking it over all of them at once, whatever their order. It is zero exactly where all these elements are zero, multiplying the array by a complex number multiplies it by the magnitude, and for a sum of arrays it is at most the sum of both. Without an axis all elements are taken, each once. Unknown names raise; negative positions raise too.", "quantifier": "Every complex array with distinct dimension names, every set of its dimensions; exact numbers.", "why_tests_cant": "The laws relate the results for different axes, orders and arrays, for every shape; the tests compare single arrays only.", "anchors": ["hftools/dataset/arrayobj.py: _hfarray.rss", "hftools/dataset/arrayobj.py: _hfarray.sum"]}
{"id": "C108", "title": "Indexing an array of network parameters keeps the networks", "statement": "Indexing an array of two-port parameters so that the matrix axes stay whole gives an array of the same class with, at every remaining coordinate, the matrix of the array at the coordinate selected; if the array has the default reference impedance, or parameters which do not depend on it (Z, Y, G, H, ABCD), these are the same networks, and converting before or after indexing makes no difference. An integer index on a matrix axis gives a plain array (or number) with the selected elements; a selection which leaves other than two columns is refused by G, H, ABCD, T and Tp arrays and accepted by Z, Y and S arrays. As coded the reference impedance is lost: an S-array with another impedance turns into another network when indexed (e.g. wherever it is matched).", "quantifier": "all arrays of two-ports of all eight classes with any outer axes and coordinate values, all tuples of integers, slices and an Ellipsis that fit, all elements of a field, all reference impedances, all target classes of the conversion", "why_tests_cant": "every combination of integers, slices with negative steps and bounds, Ellipsis and outer axes occurs, and the loss of the impedance only shows when the result is converted or compared in volts and amperes; tests use 50 ohm and the first index", "anchors": ["hftools/networks/multiports.py: _MultiPortArray.__getitem__, _MultiPortArray.__init__, _MultiPortArray.__array_finalize__, _TwoPortArray.__init__", "hftools/dataset/arrayobj.py: _hfarray.__getitem__, ismatrix"]}
{"id": "C109", "title": "Legends, saving of figures, width and ticks of axes", "statement": "build_figlegend lists, in the order of the axes and of their lines, exactly the lines whose label does not begin with an underscore, each as often as it occurs and with its own label at the same place. savefig leaves the transparency of the figure as it was and writes the file with a transparent face exactly if facetransparent is given. save_all_figures_to_pdf writes every open figure on one page, in the order of the figure numbers, and finishes the file; a name without the extension .pdf (in any case, and not a name of dots only before it) is refused before anything is written. adjust_axwidth moves the right edge of each of the axes listed once for every time it is listed and nothing else, and taking the change back restores all positions; set_xtick and set_ytick set the distances of the axes listed and nothing else. As coded, an error while saving leaves the figure transparent, and an error while drawing a page leaves a file that is not finished and lacks the later figures.", "quantifier": "all lists of axes with all lists of lines and labels, all transparencies, all sets of open figures with any numbers, all file names, all figures that fail, all widths, all lists of axes with repetitions", "why_tests_cant": "lists of lines, figures and axes are unbounded, names of files are arbitrary, and the failures happen at any figure", "anchors": ["hftools/plotting/helper.py: savefig, all_figures, adjust_axwidth, save_all_figures_to_pdf, build_figlegend, set_xtick, set_ytick"]}
{"id": "C110", "title": "Unit matrices of scattering parameters", "statement": "unit_smatrix(n) exists for two and more ports (IndexError below) and describes the network whose first two ports are connected directly and whose other ports are terminated with the reference impedance; cascading any array of two-port scattering parameters with unit_smatrix() on either side, and de-embedding it on either side, gives at every coordinate the matrices of the array. unit_matrix(n) describes n open ports. As coded the argument cls is ignored: unit_matrix(2, cls=ABCDArray) is an array of scattering parameters and does not describe the direct connection that the unit chain matrix describes.", "quantifier": "all numbers of ports, all arrays of two-ports with any sweeps and repetitions (without empty axes), all elements of a field, all reference impedances, all classes asked for", "why_tests_cant": "neutrality must hold for every array, every coordinate and every matrix; the tests compare the four elements of the two by two matrix", "anchors": ["hftools/networks/multiports.py: unit_matrix, unit_smatrix", "hftools/networks/spar_functions.py: cascadeS, deembedleft, deembedright"]}
{"id": "C111", "title": "The x axis of a block through whole programs", "statement": "For every program that creates blocks, assigns arrays and dimensions, shares arrays between blocks, deletes, renames, replaces dimensions, copies and keeps variables: `xname` of a block is determined by the assignments to this block alone. Assigning a dimension gives its name if there was none and otherwise changes nothing; assigning an array gives the name of its outermost dimension if there was none, and takes the name away if there was one; a new block has none, a copy has that of its original. After one array (or one dimension under its own name) `xvalue` gives the coordinates. The claim that `xvalue` can be read whenever there is an array is false: after a second array it raises a TypeError, after the dimension got another name it raises a KeyError, as it does for a dimension stored under a name that is not its own.", "quantifier": "all programs (finite sequences of operations) over any number of blocks and arrays, all arrays, dimensions and names", "why_tests_cant": "Histories of unbounded length with several blocks that share arrays.", "anchors": ["hftools/dataset/dataset.py: DataBlock.xname, DataBlock.xvalue, DataBlock.__setitem__, DataBlock.replace_dim, DataBlock.copy, DataBlock.keep_variables"]}
{"id": "C112", "title": "Cascading and de-embedding with any number of ports", "statement": "`cascadeS`, `deembedleft` and `deembedright` of scattering matrices with n ports: for less than two ports they raise an IndexError; for two ports they are the operations on two-ports; for more ports they raise no exception. De-embedding then gives at the first two ports what it gives for the first two ports of the arguments. The claim that they are right for n ports is false: all elements of further ports are zero whatever the networks are, and cascading is wrong even at the first two ports: a third port that is connected to nothing changes the input reflection unless its own reflection is one (or the second network does not reflect, or the determinant is zero).", "quantifier": "all numbers of ports, all matrices over a field", "why_tests_cant": "All sizes of matrices and all elements.", "anchors": ["hftools/networks/spar_functions.py: cascadeS, deembedleft, deembedright", "hftools/math.py: det"]}
{"id": "C113", "title": "Dictionaries of settings laid over each other", "statement": "`MergedDicts` of scoped dictionaries and of other `MergedDicts`, nested in each other: a lookup gives the value from the last argument that finds the key, else what the container around finds, and raises KeyError if nothing does; `in` is true for exactly the keys that can be looked up; every key of `keys()` can be looked up; a copy has the same keys and the same values for the keys that an argument finds. A list among the arguments or around raises TypeError where it is asked. A dictionary looks keys up past lists and `MergedDicts` around it. Four expectations are false: an entry of an earlier argument does not win over one which a later argument merely finds around itself; `keys()` and copies leave out what comes from around; an empty dictionary around the layers hides everything outside of it (and makes `in` false for a dictionary that can look the key up); and a dictionary inside of a `MergedDicts` says that it has the keys of the layers but raises KeyError for them.", "quantifier": "all trees of dictionaries and merged dictionaries of any depth and width, all keys and values", "why_tests_cant": "Trees of any depth and all keys; tests look at a few.", "anchors": ["hftools/file_formats/config.py: MergedDicts, LexicalScopeDict, find_next_dict"]}
{"id": "C114", "title": "Finding dimensions in the dims of an array", "statement": "For a dimension object, `dim in array.dims` is true exactly if some dim has its name and its class or one derived from it; then `matching_index` gives the place of the first of them and `get_matching_dim` that dim, else both raise KeyError. A text is in the dims of an array exactly if a dim has that name, and `index` then gives the place of the first; other objects are never found. `index` of a dimension object finds the first dim with equal name, class, data and unit. Expectations that fail: `get_matching_dim` and `matching_index` raise KeyError for every name although `name in dims` is true, and in a list of dims no name is found; `dim in dims` does not mean that `dims.index(dim)` works, it raises ValueError if the data differ; and being found is not symmetric for classes derived from each other.", "quantifier": "all lists of dims of all classes with any data, all objects asked for", "why_tests_cant": "All lists of dims, all classes and all coordinates.", "anchors": ["hftools/dataset/arrayobj.py: Dims, DimsList", "hftools/dataset/dim.py: DimBase"]}
{"id": "C115", "title": "Making directories, also at the same time", "statement": "`make_dirs(*segments)` makes the directory with the joined path and all those it is in, and changes nothing else; a directory that exists stays as it is; if a file is in the way there is an exception (FileExistsError for the path itself, NotADirectoryError further out) and nothing is made. The segments are put behind each other beginning at the last absolute one. With any number of callers and other programs that make files, in any order of their steps, nothing is lost; a call that returns has made its directory; a call that raises an exception found something at its path or a file in the way; and only directories on the paths of the callers are made. False is that the call can only fail if a file is in the way: of two callers that make the same directory one may get FileExistsError.", "quantifier": "all file trees, all paths, any number of callers, all interleavings of their calls of the file system with other programs that make files", "why_tests_cant": "All interleavings of several programs and all trees.", "anchors": ["hftools/utils.py: make_dirs"]}
{"id": "C116", "title": "What is in a file after saving did not go well", "statement": "Saving as CITI, Touchstone, MDIF or SP file: if nothing goes wrong the file holds the whole text and is closed. If making a line raises an exception, or a character is not in the encoding, the exception is raised; CITI and Touchstone files are closed and hold the text up to there, MDIF and SP files stay open and hold a beginning of that text, and all of it once the open file is thrown away if nothing else happened. If the program is ended at any moment the file is as before or holds a beginning of the text. A Touchstone file of a block without S is comments, scalars and the option line. False are: that a save that fails leaves the old file (it is emptied first, even if not one line can be made), and that the file may safely be saved again after a failed save as MDIF or SP: when the file that stayed open is thrown away, its buffer overwrites a part of what was saved in the meantime.", "quantifier": "all sequences of texts with exceptions anywhere, all characters and encodings, all moments at which the buffer is written, all crash points, all files saved in the meantime", "why_tests_cant": "All places of exceptions and crashes, and all decisions of the buffer.", "anchors": ["hftools/file_formats/citi.py: save_citi", "hftools/file_formats/touchstone.py: save_touchstone", "hftools/file_formats/mdif.py: save_mdif", "hftools/file_formats/spdata.py: save_spdata"]}
{"id": "C117", "title": "Making arrays: dims, unit and format", "statement": "`hfarray(data, dims, unit, outputformat, info)`: every array that is made has one dim for each axis and exactly the elements it is made from. From a dim one gets the array of its coordinates over that dim, with its unit and format; from an array everything is taken over that is not given, so that `hfarray(array)` is the same array; other data need as many dims as axes, else HFArrayShapeDimsMismatchError; without dims one axis becomes `freq`, two become `freq` and `rep`, numbered from zero, and more raise DimensionMismatchError; the format without any given follows from the kind of elements. `info` means `dims`; both together are a ValueError. Expectations that fail: dims given for a dim are ignored (and a ValueError as `info`); an empty dim without format can not be made an array (IndexError); and it is not checked that the dims are as long as the axes.", "quantifier": "all data (dims, arrays, plain data of any shape), all combinations of arguments", "why_tests_cant": "All shapes, dims and combinations of arguments.", "anchors": ["hftools/dataset/arrayobj.py: _hfarray.__new__, hfarray.__new__, verify_dimension", "hftools/dataset/dim.py: DimBase.outputformat, DimBase.__hfarray__"]}
{"id": "C118", "title": "Units and formats in calculations with arrays", "statement": "In every calculation built from arrays of one class and numbers with + - * / **, views, copies, transposes, reordering, squeeze, indexing, abs and negation, and sum, mean, std, var, min, max, cumsum, cumprod, the result has the unit and output format of the array that stands first, or no unit and the default format if a reduction was taken of a part that begins with it. Hence the unit is right whenever only quantities of one unit are added and scaled by numbers or by unitless arrays on the right. It is not right in general: a product has the unit of its first factor only, so products do not commute in their units, 1/x and x**2 have the unit of x, and every sum, mean, minimum and so on has lost unit and format, as has mean(x) - x though not x - mean(x).", "quantifier": "all calculations (expression trees of any size), all units and formats of the arrays", "why_tests_cant": "A test looks at the unit after one or two operations; the rule for arbitrary nested calculations, and exactly which ones give right units, needs induction over the calculation.", "anchors": ["hftools/dataset/arrayobj.py: _hfarray.__array_finalize__, _hfarray.__new__, check_instance, change_shape, _hfarray.__getitem__, _hfarray.sum, _hfarray.mean, _hfarray.cumsum, _hfarray.__rtruediv__"]}
{"id": "C119", "title": "HDF5 files: the library closes what it opens and nothing else", "statement": "Reading and saving HDF5 files takes a file name or an open h5py.File. After any program of reads and saves of either kind, with exceptions at any point, mixed with the program's own opening and closing of files, exactly those files are open that the program opened itself and has not closed. So a file of which the program holds no open one can always be saved by its name, and then holds exactly the names of the block, whatever happened before. An open file that is given stays open. Reading changes no file and works also beside an open one; saving leaves all other files as they are. The exception is the functions of format version 0.1 called directly with a name: if they raise an exception while reading or writing, the file stays open and can not be saved after that. Saving to an open file does not empty it: a name that is there already raises an exception after the names before it were added. Saving under the name of a file that is held open raises and changes nothing.", "quantifier": "all programs (sequences of operations) with all points at which reads and saves raise exceptions, all contents of the files", "why_tests_cant": "A test tries single calls that succeed; that no file is ever left open needs every sequence of calls and every point of failure.", "anchors": ["hftools/file_formats/hdf5/helper.py: hdf5context", "hftools/file_formats/hdf5/hdf5.py: read_hdf5, save_hdf5", "hftools/file_formats/hdf5/v_01.py: read_hdf5, save_hdf5", "hftools/file_formats/hdf5/v_02.py: read_hdf5, save_hdf5"]}
{"id": "C120", "title": "Dates and times in comments", "statement": "A property in a comment whose value is a day as yyyy-mm-dd becomes exactly that day, and a day followed by blanks or tabs and a time hh:mm or hh:mm:ss exactly that moment, to the minute or second, for every day of the calendar with its leap years and every time, whatever the blanks; a day that is not in the calendar, with or without a time, stays text unchanged. Whatever is not converted is left as it was written. A whole comment `name = day time` or `name : day` sets the property of that name to that moment, whatever white space is around the separator. Violations: a time alone, and everything else that begins with two digits and a colon, becomes the number of the hours, so minutes and seconds are lost; a day written with slashes becomes the number of its year.", "quantifier": "all days and times in digits, all sequences of blanks and tabs between them, all rests of texts", "why_tests_cant": "Four conversions are tried in turn, each with its own regular expression; that none takes a date for something else has to be shown for every date, blank and calendar rule.", "anchors": ["hftools/file_formats/common.py: convert, conv_date, conv_date_time, process_comment", "hftools/utils.py: to_numeric, dateregexp", "hftools/constants/si_units.py: string_number_with_unit_to_value"]}
{"id": "C121", "title": "Arrays of network parameters made from numbers", "statement": "An array of S-, Z-, Y- or other network parameters made from an array of numpy with two, three or four axes has rows i and columns j as its last two axes, before them freq, or freq and rep, all numbered from 0; it counts as a matrix and has the elements of the array of numpy. With fewer or more axes an exception is raised. With dims given, or made from an array that has dims, exactly these dims are taken when there is one for each axis, otherwise an exception is raised; the unit is the one given or that of the array. Dims and info together are refused. Nothing checks that dims given or taken over end in rows and columns, so an array over two sweeps is accepted and is then not a matrix; neither is it checked that the matrix is square.", "quantifier": "every array of numpy of any shape, every array with dims, every list of dims, every unit", "why_tests_cant": "Tests construct a few shapes of two-ports; the rule ranges over every shape and every list of dims, and over shapes where the number of axes decides between dims, an exception here and an exception in the base class.", "anchors": ["hftools/networks/multiports.py: _MultiPortArray.__new__, _MultiPortArray.ismatrix", "hftools/dataset/arrayobj.py: _hfarray.__new__, _hfarray.default_dim"]}
