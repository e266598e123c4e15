# Machine-checked model of hftools

Subject: hftools (python), read as text from `/repo`. Nothing in `/repo` is
built or executed; every model definition below was transcribed by hand from
the source and cites file and lines.

## 1. Trusted base

* Lean 4.33.0 kernel, and Mathlib 4.33.0 (all of it re-checked by that kernel).
* Axioms: theorems depend on at most `propext`, `Classical.choice`,
  `Quot.sound`. There is no own axiom, `sorry`, `admit`, `native_decide`,
  `bv_decide`, `implemented_by` or `unsafe`.
* The transcription from python to Lean. Each definition carries a comment
  `-- repo: file:lines` and the simplifications made.
* The behaviour of python and of numpy primitives (dict, list, `sorted`,
  `re.match`, `ndarray.transpose`, broadcasting, `reshape` ...), which are
  re-stated as Lean definitions in the model next to the code which uses them.
* Floating point numbers are modelled by exact numbers (`Int`, `Rat`, an
  arbitrary field, `ℝ` or `ℂ`, depending on the area). Rounding, NaN and
  infinities are outside of the model unless said otherwise.

## 2. Layout

`lean/Verif/<Area>/Model.lean`  transcription of the code
`lean/Verif/<Area>/Spec.lean`   independent specification (where it is more than one line)
`lean/Verif/<Area>/Lemmas.lean` helper lemmas
`lean/Verif/<Area>/Props.lean`  property theorems with non-vacuity examples

Property theorems are named `Cnn_...`; `_partial` marks that only part of the
English claim is provable (what is missing is written beside it);
`_refuted`/`_witness` theorems prove that the code violates the naive claim.

## 3. Properties: what is modelled and how it is proved

| id | area (lean/Verif) | modelled code | proof |
|----|------|----------|-------|
| C01, C02 | DataDict | `dataset.py` 88-179: dict + `order` list, every mutating method incl. the inherited ones | refinement to an ordered map, induction over histories |
| C03, C45 | DataBlock | `dataset.py` 199-345: `vardata`, `ivardata`, `xname`, `__setitem__`, `__delitem__`, `rename`, `replace_dim`, `copy`, `keep_variables`, with array objects shared between blocks | invariant by induction over histories of a world of blocks |
| C04, C14 | DataBlock | element names (185-190) as functions on character lists, element read and write, `convert_matrices_to_elements` 71-85 | for all names and matrices |
| C05 | Dim | `dim.py`: `__eq__`, `__hash__`, `__lt__`, classes | algebra |
| C06-C10 | HFArray | `arrayobj.py`: `dims_union`, `change_shape`, `make_same_dims`, broadcasting, `reorder_dimensions`, `transpose`, axis handlers and reductions, `__getitem__`, `take`, masks, `remove_rep`, `remove_tail` | index computations by induction on dims lists |
| C11 | HFArray | `make_fullcomplex_array` | ring identities |
| C12 | Hyper | `dataset.py` 664-710 | sortedness of grid rows, pigeonhole |
| C13 | DataBlock | `dataset.py` 44-68, the set enumerated in any order | measure + invariant |
| C15, C41 | Utils | `utils.py` `stable_uniq`, `uniq`, `flatten`, `lex_order` | list induction |
| C16, C17, C43, C44 | Units | exponent search and tables, unit strings | rational arithmetic; whole-table checks plus structural arguments |
| C18, C19 | Touchstone | `touchstone.py` 36-204, 227-254 | arithmetic on record lengths; round trip for all n |
| C20 | Readers/Stream | `readbase.py` `Stream` and combinators | list induction, induction on parsers |
| C21 | Readers/Assemble | `readbase.py` 211-242, 371-391, 424-426 | uniqueness of sorted lists |
| C22 | Citi | `citi.py` 40-239 | tokenizer/parser run on the writer's output, for all blocks |
| C23 | Mdif | `mdif.py` 274-308, 376-460 | pigeonhole on index sets; loop invariants |
| C24 | Readers/Normalize | `common.py` 231-309 | reuse of C02 |
| C25, C42 | Config | scope chains; intervals | induction |
| C26 | Hdf5 | name escaping; save and append | induction on strings/histories |
| C27-C29 | Networks | `spar_functions.py`, `multiport.py` over an arbitrary field | linear algebra on port relations |
| C30 | Networks/Noise* | `C' = T C T^H` over the complex numbers, with the views made on the way (Networks/Objects) | realisations of sources; `PosSemidef` |
| C31 | Networks/Passive | singular values and eigenvalues | Mathlib matrices |
| C32-C36 | MathFns | `math.py` 20-40, 71-308 | real and complex analysis, `omega` |
| C37 | Smith | circle parameters and arcs | field arithmetic, angles |
| C38 | Readers/Dispatch | recognisers as functions on lines | case analysis |
| C39 | Cache | cache as a state machine with crash points | induction on histories |
| C40 | Logger | handler list + global | induction on histories |
| C46, C47 | DataBlock/Filter* | `dataset.py` 410-495, both behaviours of numpy for masks of a wrong length | named coordinates; loops reduced to assignments to an ordered map |
| C48 | Merge | `merge.py` 150-221 with `hyper=False`, not the repair for strings of different lengths | groups, then induction over the loops; the set of names in any order |
| C49 | HFArray/Squeeze*, DataBlock/Squeeze* | `arrayobj.py` 576-589 without argument, `dataset.py` 712-720 | named coordinates |
| C50 | DataBlock/Interp* | `dataset.py` 722-756; `interp1d` of scipy is a parameter | masks as filters of the list of coordinates |
| C51 | Readers/Complex* | `readbase.py` 27, 118-158 | loop invariant over the table of names |
| C52 | Sp/{Model,Text,Lemmas,Spec,Parse,Props,Examples} | hftools/file_formats/spdata.py:51-157 | tables written as lines are tokenized, grouped and parsed back to exactly their columns (Holds, Good, IsBlock) |
| C53 | Sp/{Comments,CommentProps,Examples} | hftools/file_formats/common.py:107-204 | regular expression as shortest name, shown for every name, unit, separator and value |
| C54 | HFArray/{Diag,DiagLemmas,DiagProps} | hftools/dataset/arrayobj.py:92-191, dim.py:169-210 | memory as a function of positions; positions of the view are those of the diagonal, different indices have different positions |
| C55 | HFArray/{Axis,AxisProps} | hftools/dataset/arrayobj.py:887-901, 918-960, 468-478 | axis resolution to the first axis of the name, accumulation as a fold along the named coordinate |
| C56 | Sp/Write*.lean | spdata.py:160-194, common.py:312-475 | C56_roundtrip: lines written are those of tables, composed with C52_read; number formats are functions, conversion back is a hypothesis |
| C57 | Units in titles | readbase.py fix_unit, _guess_unit; dataset.py guess_units | the regular expression is characterised completely; induction over the names with the view of the block as invariant |
| C58 | HFArray/MatMul | math.py 393-402, arrayobj.py 238-246 | MatMulProps: product at every coordinate, refusal, associativity, labels |
| C59 | HFArray/MatMul | math.py 374-378, 411-424 | LinAlgProps: determinant, inverse, solution at every coordinate |
| C60 | Readers/Files | readbase.py 265-341, 394-401 | FilesProps: values, names and numbers of all files; FilesExamples |
| C61 | Networks/Objects* | operators between port arrays as objects with shared memory | elements of result, memory before and after |
| C62 | Networks/Attr* | table of element attributes, getattr and setattr | rows and columns by number, spelling of names |
| C63 | Mdif | `mdif.py` 49-105, 162-272 | token grammar by prefixes; loop over rounds of lines; writes into an empty block |
| C64 | Touchstone | `touchstone.py` 36-79, 137-204 | lines described by what they say (relation on texts), induction over lines; reuses the record proofs of C18 |
| C65 | `Citi/ReadSpec` (meaning of lines, files as contents) | `citi.py` 48-175 | every line and every file of this form, by induction over items; errors for lines that say nothing and data that do not fit |
| C66 | Mdif | `mdif.py` 463-521, `common.py` 335-375 | lines written as sheets of tokens, then C63; product of coordinates as positions |
| C67 | Mdif/Merge, FilesProps | mdif.py:113-160, 311-348; readbase.py:307-341 | fold of assignments for the variables and settings, groups by name as an association list, composed with the round trip of saving |
| C68 | Hyper/Block | dataset.py:664-710 whole blocks | cubeLoop as a sequence of assignments, take and reshape in the middle of the shape, order of the rows from C12 |
| C69 | Merge/Hyper | merge.py:158-221 with hyper=True | the merged block is a table (merged_table), then C68 and C49 |
| C70 | DataBlock/Rep, Hyper/Rep | dataset.py:645-662 | assignments to an empty block; the columns have a full grid, then C68 for the way back |
| C71 | HDF5 0.2 | `Hdf5/Save.lean`: file as datasets with attributes, escape of names, scales, reading in any order of enumeration | `Hdf5/SaveProps.lean`: the file is the list of datasets (induction), every enumeration is the image of a permutation of the block, reading it is writing the variables (induction, `writes_new`); refutations in `Hdf5/SaveExamples.lean` |
| C72 | HDF5 0.1 | `Hdf5/Save.lean`: the two groups, class names, units as strings, dispatch on the version | `Hdf5/SaveProps.lean`: induction over the groups in the enumerated order; `Hdf5/SaveExamples.lean` |
| C73 | axis labels | `Plot/Label.lean`: `UnitFormatter` with its setters, python's `replace`, `format` and `%` as automata, ticks over ℝ | `Plot/LabelProps.lean`: induction over the parts of the format and over the history; `Plot/TickProps.lean`: C16 for the largest tick; `Plot/LabelExamples.lean` |
| C74 | HFArray/MakeMatrix | math.py 43-54, arrayobj.py 194-235 | MakeMatrixProps: elements at every coordinate, refusal, determinant |
| C75 | HFArray/MakeMatrix | spar_functions.py 103-105 | SwitchProps: S a = b, uniqueness, refusal, waves put together with make_matrix |
| C76 | Utils/Chop | math.py 57-68, utils.py 127-137 | ChopProps: bounds, what is kept, idempotence |
| C77 | Readers/Treat*.lean | readbase.py:265-401, spdata.py:54-205 | C77_roundtrip, C77_file: C56, C43, C57, C24 and C21 composed; the conversions of numbers and the table of units by name are functions |
| C78 | Readers/Treat.lean, Readers/ValuesProps.lean | dataset.py:252-259 | C78_values, C78_order by induction over the properties |
| C79 | Plot/Draw, DrawProps, DrawHistory, DrawExamples | HFToolsAxes.plot and _plot_helper, _projfun; matplotlib's pairing of columns, unwrapped phases, group delays and the polar projection are parameters or trusted | columns of remove_tail via C10, induction over calls |
| C80 | Config/Load | LexicalLoader, LexicalConfig as objects in memory with parents | structural induction over documents, regions of memory, invariant on parents |
| C81 | Config/Write | write, convert_to_standard, representers, PyYAML's choice of quotes and tags | relation between documents, composed; the tag survives whatever the resolvers are |
| C82 | Config/Clock | time_constructor, overrideint | arithmetic of days |
| C83 | Readers/Quiet.lean, Readers/OneFile.lean, Citi/{Steps,Saved,Again,StepsExamples}.lean | citi.py:41-263, readbase.py:213-242, 265-401 | C83_read: C65, C78, C57, C24 and C21 (both forms of names) composed for blocks whose names no step but the table changes; C83_file; C83_roundtrip: C83_read applied to what save_citi writes; conversions between types of columns are a function |
| C84 | Readers/{Given,NoCalls}.lean, Touchstone/{Steps,StepsProps,Again,StepsExamples}.lean | touchstone.py:36-204, 227-268, readbase.py:213-242, 265-401 | C84_read, C84_noise: C64 composed with C78, C57, C24 and C21 for blocks whose names no step but the table changes; C84_file; C84_roundtrip: C84_read applied to what save_touchstone writes; numbers are rational, conversions to elements and coordinates are functions, allclose is computed exactly |
| C85 | Mdif/{Steps,StepsLemmas,StepsProps,StepsExamples,SavedText,Again,AgainExamples}.lean, Readers/Beside.lean, Readers/Elements.lean | mdif.py:113-160, 214-231, 274-308, 463-521, readbase.py:307-391 | C85_read: C63 and C23 composed with C78, C57, C24 and C21; blocks with matrices from brackets go through the later steps as blocks without the axes of these matrices (Readers/Beside); C85_roundtrip: C14 and C66 composed with C85_read, the names of the saved elements determine the matrices (Readers/Elements) |
| C86 | Plot/{Arrange,ArrangeProps,ArrangeExamples}.lean | plotting/helper.py:765-874 | C86_every, C86_inside, C86_ends, C86_ends_iff by induction over the calls; C86_layers: the running row height is that of the windows, because the second window of a row always fits |
| C87 | HFArray/{Lstsq,LstsqLemmas,LstsqProps}.lean | math.py:314-371, 427-437 | numpy's solver for one matrix is a parameter assumed to be best in every column (such a solver exists, bestSolver_trusted); the stacks as for C59; normal equations and uniqueness by projection onto the image |
| C88 | Config/{Re,ReLemmas,Scalars,ScalarSpec,ScalarLemmas,ScalarSI,ScalarInterval,ScalarProps,ScalarExamples}.lean | config.py:23-34, 212-218, 266-322, 428-436 | a small model of regular expressions with groups and greedy backtracking (all ways in order); the resolvers of PyYAML tried first are a parameter; numbers exact (no float rounding, timedelta without rounding to microseconds and without limits); strptime modelled for texts of the form of the date pattern; languages of the patterns characterised, groups by uniqueness of the reading |
| C89 | DataBlock/{Report,ReportProps,ReportExamples}.lean | dataset.py:497-606 | a block is what the report looks at (names, units, shapes, values of dimensions); the text of a number and its prefix are a parameter without blanks (linked to C16 in C89_range_refuted); tables as cells filled up with blanks and joined |
| C90 | HFArray/Mask, MaskProps, MaskExamples | arrayobj.py 31-39, 633-657; numpy's boolean indexing (positions where the mask is true, in row-major order) and __setitem__ | reduction to C07 (reordering) for the axes; the positions are the ordered true indices; names by the greatest number |
| C91 | Muwave/Model, Spec, Build, Props, Examples; Merge/Props (C48_sweep) | muwave_mat.py 41-174 (without loadmat, units, encoding) | each measurement gives a block of known form, those are uniform, so C48 gives the merged block; replace_dim, reordering and the loop over the variables follow |
| C92 | Smith/Grid, GridSpec, GridProps, PolarProps | smith.py 87-100, 123-128, 243-359; of matplotlib that patches are painted in the order they are added, that an arc goes counterclockwise from the first angle for less than a turn, or a whole one, and that an Arc is never filled | a point is black if a line goes through it and is not painted over later; circles and arcs by C37 |
| C93 | Share/* | dataset/dataset.py:201-457, arrayobj.py:371-531, 576-676, 766-769 | memory as numbered buffers, array objects with positions into a buffer, blocks and comments; a step changes only what can be reached from its arguments (induction over programs), positions stay where they are, elements of an array are at different positions |
| C94 | Plot/Axes, AxesSpec, AxesLemmas, AxesProps, AxesExamples | plotting/helper.py:50-65, 76-138, 246-255, 313-335, 346-565 | invariant between both formatters and a record of the last format, unit and name; drawing by the tick lemmas of C73 |
| C95 | `Plot/Positions`, `Plot/PositionsProps`, `Plot/PositionsExamples` | `helper.py:860-918` | text of the window manager split and read as numbers; induction over the list of positions |
| C96 | `Readers/Saved`, `Readers/SavedLemmas`, `Readers/SavedProps`, `Readers/SavedExamples` | `file_formats/__init__.py:53-82` with the saving functions (`touchstone.py:227-254`, `citi.py:178-252`, `mdif.py:462-521`, `spdata.py:160-194`) | text of the file split into lines again; lines before the deciding one show no format |
| C97 | `Plot/Polar`, `Plot/PolarProps`, `Plot/PolarExamples` | `plotting/helper.py:568-627`, `arrayobj.py:249-266` | angle and magnitude give the element back; the sum x + iy by C06 |
| C98 | `Readers/Whole`, `Readers/WholeProps`, `Readers/WholeExamples`, `Readers/Newlines` | `file_formats/__init__.py:53-82` with the saving functions and the readers | text split into lines again, whatever the ends of lines, then C96 with C84, C83, C85 and C77 |
| C99 | `Readers/Codec`, `Readers/CodecLemmas`, `Readers/CodecProps`, `Readers/CodecExamples` | `readbase.py:269,291`, `__init__.py:73`, `mdif.py:134,515`, `touchstone.py:230`, `citi.py:249`, `spdata.py:179-196`, `config.py:176,184`, `py3compat.py:14-45` | Windows-1252 and UTF-8 as codecs whose decoding is exactly the inverse of encoding; counting of bytes outside of ASCII |
| C100 | `Config/Session`, `Config/SessionLemmas`, `Config/SessionProps`, `Config/SessionExamples` | `config.py:167-209`: the classes Config and LexicalConfig, with a file system; documents are what yaml.load gives; values are opaque, with what becomes of them in a file as parameter (C81 says what this is) | invariant and refinement by induction over sessions |
| C101 | `Networks/Stack`, `Networks/StackLemmas`, `Networks/StackProps`, `Networks/StackExamples` | `networks/multiports.py:60-116, 229-233, 258-265, 294-301` with `math.py:374-402` | every step as a function of arrays with C58, C59 and C06, order of axes through the stable sort, then C27 at every coordinate |
| C102 | `Networks/Chain`, `Networks/ChainLemmas`, `Networks/ChainProps`, `Networks/ChainExamples` | `networks/spar_functions.py:15-105`, `networks/multiports.py:167-193`, `dataset/arrayobj.py:233-246` | every intermediate array as a function of coordinates (elements by position, arithmetic by name, assignment by position), then C28 and C29 at every coordinate and C101 for the other classes |
| C103 | `Networks/Ports`, `Networks/PortsLemmas`, `Networks/PortsProps` | `networks/multiports.py:60-116, 229-233, 258-269, 294-308, 332-349` | inverse of every matrix (C59) and uniqueness of the inverse; for other numbers of ports than two the shapes of all intermediate arrays are followed to the mismatch |
| C104 | `DataBlock/Dir`, `DataBlock/DirProps` | `dataset/dataset.py:384-391, 608-617` | the names as lists, reading by C04_name and C04_read |
| C105 | `Utils/Stamp`, `Utils/StampProps` | `utils.py:30-38` | fields of fixed width compared one after the other; `strftime` is modelled for the directives used and years of four digits |
| C106 | `Readers/Table`, `Readers/TableProps` | `file_formats/common.py:174-228` | lines taken apart into name, blanks and value; sorting by C41; values that are tuples are not modelled |
| C107 | `HFArray/Rss`, `HFArray/RssProps`, `HFArray/ReduceAllProps` | `dataset/arrayobj.py:771-777` | from C08; sums over coordinates are independent of the order of the axes; Euclidean norm for the triangle inequality; exact numbers |
| C108 | `Networks/Slices`, `Networks/SlicesProps` | `multiports.py` 89-114, 151-153, 210-226, `arrayobj.py` 325-338, 605-676 | from C09 (which element is where), C101 and uniqueness of parameters C27; coordinates of a matrix element split into outer and inner part |
| C109 | `Plot/Figures`, `Plot/FiguresProps` | `helper.py` 40-47, 655-748 | matplotlib is external: figures, lines and axes are identities, drawing either fails or not; induction over the loops |
| C110 | `Networks/Unit`, `Networks/UnitProps` | `multiports.py` 533-545 | elements of the matrices, voltages and currents at the ports as in C103; neutrality from C102 at every coordinate |
| C111 | `DataBlock/XAxis`, `DataBlock/XAxisProps`, `DataBlock/XAxisExamples` | `xname`, `xvalue` of a block (dataset.py:272-303), on the model of programs with shared arrays | an independent list of events per block and a function that says what each does to the name; every operation is shown to follow it, then induction over the program |
| C112 | `Networks/Wide`, `Networks/WideProps` | `spar_functions.py` 15-100 for n by n matrices, one matrix at a time | elements of the result for every n; comparison with `Networks/Cascade`; determinant of a matrix with an isolated port |
| C113 | `Config/Layers`, `Config/LayersProps` | file_formats/config.py:37-144 (`MergedDicts`, `LexicalScopeDict`, `find_next_dict`; no lists or `None` among the arguments) | mutual induction over the trees |
| C114 | `HFArray/Find`, `HFArray/FindProps` | dataset/arrayobj.py:42-90 (`Dims`, `DimsList`), `tuple.index` with dim.py:131-140 | induction over the list; the class hierarchy by an inductive relation |
| C115 | `Utils/Dirs`, `Utils/DirsProps` | utils.py:140-149 with `os.path.join`, `os.makedirs` and `os.mkdir` call by call (no links, no `.` or `..`, everything writable, nothing removed meanwhile) | induction over paths; invariant over all schedules |
| C116 | `Readers/Saving`, `Readers/SavingProps` | citi.py:246-252, touchstone.py:227-254, mdif.py:514-521, spdata.py:179-191 (with a file name), with Python's buffered files: how much of the buffer is written when is arbitrary; characters stand for their codes | induction over the texts |
| C117 | `HFArray/Make`, `HFArray/MakeProps` | arrayobj.py:366-427, 461-466, 993-1005, dim.py:85-118 (`dtype`, `order`, `subok`, `ndmin` at their defaults) | case analysis of all arguments |
| C118 | HFArray/Tags, HFArray/TagsProps | `arrayobj.py` 341-353, 407-426, 456-459, 493-526, 576-676, 693-901 as flow of unit and format through expression trees (one class of arrays; values in other models) | induction over the calculation |
| C119 | Hdf5/Handles, Hdf5/HandlesProps | `hdf5/helper.py` 18-24, `hdf5/hdf5.py` 43-60, opening and closing in `v_01.py` and `v_02.py`; contents as lists of names, HDF5 library's rules for files that are open | invariant over all programs |
| C120 | Sp/Dates, Sp/DatesProps | `common.py` 112-140, 151-171, `utils.py` 80-105; numpy's datetime64 for days, minutes and seconds (no fractions, zones) | case analysis over the conversions in turn, calendar as separate specification |
| C121 | `Networks/New`, `Networks/NewProps` | multiports.py 125-149, 162-165, arrayobj.py 369-427; without Z0, dtype, copy, ndmin | the ranks two to four one by one, fewer and more axes by cases; dims given or taken over in general; an array over sweeps is no matrix (refuted) |

## 4. Violations found in the code

Each has a theorem (`..._refuted`) with a witness, or for all inputs of a class.

| id | what goes wrong |
|----|-----------------|
| C01 | `pop`, `clear` leave stale keys: `items()` raises `KeyError`; entries given to the constructor have no order |
| C03 | blocks sharing an array object: renaming a dimension in one breaks the other; relabelling without length check; a stored variable can not be read any more once an array over a dimension of the same name is assigned |
| C04 | `S11_abs` overwrites an element; index 0 is the last row; `A11` overwrites an element of a non-matrix; a stored `S11` hides the element; value written by position, not by name |
| C05 | equal dimensions with different hashes (output format) |
| C06 | no alignment by coordinate value; sweep and partial sweep of one name are an error |
| C08 | negative integer axis raises; `ddof` is ignored |
| C09 | list index and `take` mislabel; `None` drops all labels; empty axis fails |
| C10 | other dims between repetition dims fail or are dropped |
| C11 | real data represents no number; `*` is element by element |
| C12 | descending labels; a repeated row accepted |
| C13 | variables returned twice; repeated dim fails |
| C14 | names of elements from the tenth on misread; elements lost from 11x11; existing variable lost |
| C16 | `KeyError` from 1e24; Z, z, y, mu not read back; 1000 after rounding |
| C18 | single frequency; noise above the band; pairs split between lines |
| C19 | transposed for n >= 3; single or descending frequencies; real four-port read as five-port |
| C20 | `ManyOptional` at the end of stream; `OneOf` loses the rejected token |
| C21 | gaps change names; base name overwritten; names `i`, `j`; type of the first element |
| C22 | order of sweeps; missing sweeps; empty block; eleven ports; nan/inf |
| C23 | element given twice; leading zeros; base name overwritten; invalid name shifts the columns; `.m` overwrites |
| C24 | two names with one replacement; variable hidden by dimension; x name stale |
| C25 | membership with lists or empty dictionaries in between |
| C26 | backslashes; slash in dimension name; index not advanced; failed append |
| C27 | impedance forgotten; renormalisation ignored; integers; ports |
| C28, C29 | further arguments ignored; real storage; isolated networks |
| C30 | `Rn` doubled for ABCD; `NoisyTwoport.convert` from anything but S-parameters and `passive_noise` of Y and Z always raise; wrong correlation matrix for S-parameters of other impedances than 50 Ohm |
| C31 | wrong root; margin; eigenvalues are not passivity |
| C32 | end point of the interval |
| C34 | even apertures; integers; axis; last sample |
| C35 | descending knots |
| C36 | aliasing |
| C37 | b = 0 mirrored; order of end points for G, B |
| C38 | priority does not decide; mixed files |
| C39 | same base name; failed save |
| C41 | names beginning with a digit |
| C42 | negative and tiny remainders |
| C43 | exponents; brackets |
| C44 | metre |
| C45 | x name toggles |
| C46 | value arrays return other points or fail; unused dims lost |
| C47 | unused dims fail; short arrays drop points |
| C48 | coordinates of later blocks are ignored; missing variables shift the index; no partial sweeps: fails; families of blocks which share a variable or a partial sweep (files always share `FILEINDEX`) get mixed up |
| C49 | one-ports stop being matrices |
| C50 | without a mode: order of the new coordinates ignored; always picks along the first axis |
| C51 | text after the closing parenthesis ignored; elements of an existing matrix overwritten |
| C52 | short rows drop columns silently (C52_short_row_refuted); one row with repeated columns loses the sweep (C52_single_row_refuted); rows beginning with a letter are taken for headers (C52_letter_row_refuted); partial sweeps written with %.16e, as save_spdata does, make the file unreadable (C52_exponent_refuted) |
| C53 | exponents: 2e10 is read as 20 (C53_exponent_refuted), signed exponents give no unit (C53_signed_exponent_refuted) |
| C54 | expanding all axes of an array with matrix axes twice doubles them again, the axes of a matrix pair count as diagonal (C54_matrix_refuted) |
| C55 | cumsum/cumprod on the second of two axes with the same name run along the first (C55_same_name_refuted); add_dim with negative position or an empty dimension gives a shape that contradicts the dims (C55_add_dim_refuted) |
| C56 | Variables without axes are not written at all (C56_scalars_refuted); an axis without variables raises RuntimeError after a part of the file is written (C56_dangling_refuted); matrices with more than ten ports have columns of equal names, 1,11 and 11,1 (C56_ports_refuted); with the default format %.16e of floating point axes the positions in outer axes cannot be read (C56_default_format_refuted). Units of outer axes are not written. |
| C57 | Two titles with the same name before the unit (C57_same_name_refuted) overwrite each other; a title whose name is that of a dimension scales the dimension (C57_dimension_name_refuted); beside a matrix the scaled column is written into the matrix (C57_element_refuted); guess_units reorders the dimensions (C57_dim_order_refuted). |
| C58 | C58: matrix_multiply gives the result the dims of the first operand, so the product of a 2 by 3 and a 3 by 4 matrix has a column axis of length four with three labels (C58_nonsquare_labels_refuted). A second operand with one row, or without a row axis, is not refused: numpy broadcasts the summed axis and the result holds row sums times that row (C58_one_row_refuted). |
| C59 | C59: det and inv take the last two axes whatever their class; for matrices stored with the sweep last det removes columns and sweep and keeps the rows (C59_det_position_refuted). |
| C60 | C60: with merge=False do_file calls values() of a list, so nothing can be read (C60_unmerged_refuted). Blocks of a file and files are both numbered by a sweep called INDEX1: variables read from several files with several blocks have two axes of this name, one of another length than the sweep of the block (C60_blocks_refuted), and with as many blocks as files reading fails (C60_square_refuted). |
| C61 | operators on Z, Y, G, H, ABCD, T, Tp arrays raise TypeError; S-parameters of other impedances are overwritten |
| C62 | more than ten ports: ambiguous names; results of arithmetic have no element attributes |
| C63 | a last MDIF block without `END` is dropped silently (`C63_truncated_refuted`); with PEP 479 no MDIF file can be read (`C63_generator_refuted`); surplus words and repeated titles pass (`C63_surplus_refuted`, `C63_twice_refuted`); a table without titles never ends (`C63_no_header_refuted`); the only column of a table is lost (`C63_single_refuted`) |
| C65 | several packages: only the first is read; several SEG lines, comments among lists or between data, CONSTANT TIME without six numbers: error; announced number of coordinates not checked (`C65_*_refuted`) |
| C66 | a block without a variable over all sweeps but the first cannot be saved (`C66_no_attribute_refuted`); coordinates are taken as indices (`C66_coordinates_refuted`, `C66_counted_refuted`, `C66_swapped_refuted`); numbers are left out with two or more sweeps (`C66_scalars_refuted`); complex settings cannot be saved (`C66_complex_refuted`) |
| C67 | The coordinates of the second and later blocks of an MDIF file are not looked at when blocks are put together (C67_grid_refuted); variables that only later blocks have are dropped (C67_later_refuted), a variable missing in a later block makes the whole read fail (C67_missing_refuted). An unknown blockname makes an exception object but does not raise it, the result is None (C67_name_refuted, mdif.py:156-158); no matching files give an empty result (C67_nothing_refuted). |
| C68 | C68: values of columns that do not first appear in ascending order label the elements wrongly (C68_labels_refuted); repeated combinations in place of missing ones are accepted (C68_repeated_refuted) |
| C69 | C69: settings that do not first appear in ascending order exchange blocks (C69_labels_refuted); repeated settings are accepted (C69_repeated_refuted); the argument indexed of merge_blocks is not used |
| C70 | C70: variables with the repetitions in another order than the block get wrong coordinates (C70_order_refuted); variables with some of the repetitions get an axis that does not fit the dimension of its name (C70_some_refuted) |
| C71 | Version 0.2 loses dims no variable uses, cannot read axes of derivatives or unnamed axes it saved, cannot save dims with a slash, turns backslashes to slashes, and a variable S11 besides S may overwrite its element (v_02.py:44-168). |
| C72 | Version 0.1 turns unnamed axes to repetitions, saves names with a slash it cannot read, loses units reading None, and gives variables the dims of the block (v_01.py:43-119). |
| C73 | UnitFormatter: label_fmt of the constructor raises or is forgotten (helper.py:142-153), units with % and the format [^] raise (223-239), ticks are scaled without label (155-180), the label keeps an old prefix (178-180). |
| C74 | make_matrix stores all four arrays with the dtype of the first one: with integers or real numbers in a, fractions or imaginary parts of b, c, d are lost (C74_dtype_refuted). A sweep without points is an error if another array does not have it (C74_empty_refuted). |
| C76 | utils.chop raises ValueError for arrays without elements, math.chop does not (C76_empty_refuted); a relative tolerance above one removes even the largest number (C76_rtol_refuted). |
| C77 | Units of complex variables and matrices are lost on reading, and a prefix in the unit of a complex variable is dropped without rescaling (C77_units_refuted); one-port matrices come back as a variable S11 (C77_oneport_refuted); plain variables V11, V12 come back as a matrix V (C77_elements_refuted) |
| C78 | A property named like an element of a matrix of the block overwrites the element (C78_element_refuted) |
| C79 | Byte-string formats draw arrays against point numbers and put their unit on the x axis (C79_bytes_refuted, C79_bytes_projection_refuted); matrices cannot be plotted (C79_matrix_refuted); dB and degree axes get the unit of the data (C79_unit_refuted); unity and wrapunwrapeddeg axes do not project (C79_wrap_refuted); x and y are paired by position (C79_names_refuted). |
| C80 | assignments to the top level are not inherited; an aliased dictionary inherits from its last use |
| C81 | values with unit, intervals and dates come back as text; files with paths cannot be loaded |
| C82 | text after a clock time is ignored |
| C83 | If the columns of a matrix are written with and without brackets only those without become the matrix, the others stay (C83_both_refuted); with columns of different types the imaginary parts are lost if the first is real (C83_types_refuted); a matrix with one element is a column S11 after reading (C83_one_port_refuted) |
| C84 | The option line written is always that of 50 ohms and a comment Z0 is not looked at, so the reference impedance of a saved block is lost (C84_z0_refuted); a comment such as S11: 3 replaces the element of the matrix at every frequency (C84_element_refuted); matrices of three or more ports come back transposed (C84_roundtrip) |
| C85 | The axes i and j of a matrix made from columns S[i,j] are not among the dimensions of the block, although the variable has them (C85_axes_refuted) |
| C86 | arrange_figures promises a pattern without overlap: the first window of a row after the first is not counted for the row's height (C86_single_refuted, C86_heights_refuted), later windows of a row are not checked for their height (C86_high_refuted), the third layer lies exactly on the second (C86_hidden_refuted), a window as large as the screen makes the call repeat itself for ever (C86_large_refuted) |
| C87 | the argument squeeze of lstsq has no effect (C87_least holds for both values); the row dim of the result keeps the coordinates of the rows of A (C87_labels_refuted) |
| C88 | metre is read as milli (C88_metre_refuted); a text that begins like a date and goes on cannot be loaded (C88_date_refuted) |
| C89 | blocks with an empty dimension, a unit with a blank or a value without prefix cannot be printed (C89_empty_refuted, C89_unit_refuted, C89_range_refuted); units of integer dimensions are not shown (C89_integer_unit_refuted); lines three wider than asked for (C89_width_refuted) |
| C90 | a[mask] = v goes by the positions of the axes while a[mask] goes by dims: with the dims of the mask in another order the two mean different elements; an anonymous dim named ANONYMOUS makes a[mask] a ValueError |
| C91 | muwave files: MuwaveIOError is not defined; only type S can be read (d.S); a number among the properties gets the default dim freq and makes reading fail; with several files of several measurements both sweeps are called INDEX1 (ValueError, or two axes with the same name) |
| C92 | a half of the admittance grid (standard=False) is outlined on the wrong side; smith_polar hides the lower half of the Smith chart under the white disk of polar_grid |
| C93 | filter and keep_variables write into the block they read when a variable has the name of an element of another one; keep_variables with a dimension replaces the dim in the arrays of the old block; filter and sort share the variables without the filtered dim and the comments with the old block |
| C94 | unit of the data on dB and angle axes; refused format stays and blocks every later one; angle axes forget the unit; empty format keeps the old label; name of the first dimension stays with the unit of the second (C94_*_refuted) |
| C95 | set_figure_positions(get_figure_positions()) moves windows that are not wholly at coordinates between 0 and the size of the screens, so windows on a screen to the left of (or above) the first one are not put back; one window placed by its right or lower edge makes get_figure_positions raise ValueError (`helper.py:870-873, 896-910`): C95_left_refuted, C95_edge_refuted, C95_closed_refuted |
| C96 | an MDIF file of a block with at most one sweep has no VAR line, and read_data takes it for SP data (`mdif.py:39-43, 462-503`, `__init__.py:72-82`): C96_mdif_flat_refuted, C96_flat_refuted; sweep names with other characters: C96_name_refuted; SP data with a sweep named VAR or CITIFILE: C96_sp_refuted; comments with line breaks: C96_comment_refuted |
| C97 | an array without dims loses its angles on polar axes (`helper.py:586-590`): C97_plain_refuted, C97_numpy_refuted; real arrays with x of several dims are refused because only y loses its tail (`helper.py:596-600`): C97_dims_refuted, C97_same_refuted; matrices: C97_matrix_refuted |
| C98 | an MDIF file of a block with at most one sweep goes to the reader of SP data: C98_mdif_flat_refuted, C98_flat_refuted |
| C99 | in a locale with UTF-8, Touchstone and CITI files are written in UTF-8 and read as Windows-1252 (`touchstone.py:230`, `citi.py:249`, `readbase.py:269`): C99_utf8_refuted, C99_unreadable_refuted, C99_degree_refuted; SP data in Windows-1252 cannot be opened by read_data (`__init__.py:73`): C99_sp_refuted |
| C100 | A file of settings that cannot be parsed empties the object that reads it (config.py:174, 197); a value that cannot be represented makes write empty the file (184-186, 207-209: the file is opened before the values are represented), which can then not be read. |
| C101 | a repetition before a sweep: networks exchanged or ValueError: C101_order_refuted, C101_order_error_refuted, C101_exchanged_witness |
| C102 | an axis empty in one array, of length one or missing in the other: ValueError: C102_empty_refuted, C102_empty_witness |
| C103 | S-parameters "of any dimension" can be converted for two ports only, `convert` slices at 2: C103_fails, C103_impedance_fails, C103_matched_refuted |
| C104 | the names offered by `dir` include one for the tenth column that reads the first column (boundary `<= 10`): C104_ten_refuted; element names of a matrix whose name ends in a digit raise: C104_digit_refuted; nothing is offered for more than ten rows or columns: C104_large_refuted |
| C106 | the heading of the table of comments is longer than the lines below it if all names are shorter than three characters: C106_short_refuted |
| C108 | Indexing (`net[idx]`, also `net[...]`) makes the result from a plain array, which has no reference impedance: the result always has the default 50 ohm. S-, T- and Tp-arrays with another impedance become other networks (C108_impedance_refuted, C108_impedance_witness). |
| C109 | `savefig(facetransparent=True)` does not restore the transparency if saving raises (C109_save_refuted); `save_all_figures_to_pdf` does not close the file if a figure can not be drawn (C109_unfinished_refuted). |
| C110 | `unit_matrix` and `unit_smatrix` ignore `cls`: `unit_matrix(2, ABCDArray)` is not the direct connection (C110_class_refuted). |
| C111 | After a second array is assigned there is no x axis and `xvalue` raises a TypeError; after `rename` or `replace_dim` of the x axis `xname` keeps the old name and `xvalue` raises a KeyError (`C111_second_refuted`, `C111_renamed_refuted`, `C111_key_refuted`). |
| C112 | Cascading or de-embedding networks with more than two ports raises no exception; further ports get zeros and the reflections of a cascade are wrong: C112_lost_refuted, C112_third_refuted. |
| C113 | Merged settings: what a later argument finds around itself wins over an entry of an earlier one; `keys()` and `copy()` leave out what is around; an empty dictionary around hides the rest; a dictionary inside of a `MergedDicts` says `in` for the keys of the layers but raises KeyError (`C113_*_refuted`). |
| C114 | `name in array.dims` is true but `get_matching_dim(name)` and `matching_index(name)` raise KeyError, and `name in` a `DimsList` is false (C114_name_refuted); `dim in dims` although `dims.index(dim)` raises ValueError (C114_index_refuted). |
| C115 | `make_dirs` looks whether the directory exists and then makes it without `exist_ok`: another caller in between makes it raise FileExistsError (C115_race_refuted). |
| C116 | Saving empties the file first and does not restore it if a line can not be made (C116_old_refuted); `save_mdif` and `save_spdata` do not close the file after an exception, and its buffer later overwrites a file saved in the meantime (C116_late_refuted). |
| C117 | `hfarray(dim, dims=...)` ignores the dims (C117_ignored_refuted), with `info` it is a ValueError (C117_info_refuted); an empty dim without format raises IndexError (C117_empty_refuted); dims may be longer or shorter than the axes (C117_lengths_refuted). |
| C118 | Units are those of the first operand only: V*A is shown as V, 1/x with the unit of x, and reductions (sum, mean, std, min, ...) lose unit and format (`C118_product_refuted`, `C118_order_refuted`, `C118_reduce_refuted`, `C118_mean_refuted`) |
| C119 | `v_01.read_hdf5`/`save_hdf5` with a name leave the file open after an exception (`C119_old_refuted`); mode "w" has no effect on a file that is given open (`C119_mode_refuted`) |
| C120 | A time alone in a comment (`!Time: 09:26:11`) is read as the number 9, a day with slashes as the year (`C120_time_refuted`, `C120_slash_refuted`) |
| C121 | Network parameters made from an array over two sweeps are accepted although they are no matrix (`C121_sweeps_refuted`). |

## 5. Testing the theorems

`seeded/LOG.jsonl` has one line per wrong program: the model is edited like a
realistic bug in a scratch copy, and the theorems that no longer prove are
listed. Theorems that survived although their claim had become false were
tightened.

How far to trust the lists: the script that makes the log replaces a declaration that
fails by a `sorry` and builds again. In its first version, when one declaration had several
errors, the later ones could be charged to the declaration that follows it. Lines with
`"theorems_failed_is": "upper bound"` come from that version and had more than one failing
declaration: the edit did break the build, but the list may name a theorem that still
proves, and where only a helper lemma broke the verdict `killed` itself is not certain.
Lines with `"exact"` had a single failing declaration or were made with the corrected
script. A theorem that uses a broken lemma or theorem counts as failed in both.

## 6. Not modelled

What matplotlib does with curves, labels and patches, YAML/HDF5/MAT libraries themselves (the encodings of
text in HDF5 and MATLAB files among them), warnings and user interaction; `_external/path.py`;
`file_formats/slask`; the hypercube
functions of `merge.py`;
`combine_elements_to_matrix`; `matrix_multiply_old`; writing comments to files other than
CITI and SP. Units and dim classes are lost
by the file formats and not part of the round trip statements.
