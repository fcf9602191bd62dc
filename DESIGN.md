# Formal model of dessia_common: design

## Method

The Python source in /repo is modelled in Lean 4 as total, computable functions. Each Lean definition cites
the file and lines it models. Exceptions are values (`Except PyErr α`), Python mutation is state passing, Python
floats are exact rationals (`Rat`), Python dictionaries are association lists with insertion order and first-match
look-up (well-formedness = distinct keys, stated where needed). A loop that may not end takes a number of steps
(`fuel`) and the theorems say for which inputs a number of steps is enough, or that none is.

Files: `Model.lean` or a file named after what it models holds definitions (the code), `Spec.lean` files the independent
specification (relations or functions that do not mention the model), `Lemmas.lean` files helper lemmas and `Props.lean`
files the property theorems with `example`s showing that their hypotheses are met. Where the code violates the property, the
negation is proved on a concrete witness (name `..._violated`) and the part that holds is a theorem named `..._partial`.

The theorems are tested against wrong programs: `seeded/LOG.jsonl` lists edits of the model made in a scratch copy, and the
theorems which then fail.

## Trusted base

* Lean 4.33.0 kernel; the axioms `propext`, `Classical.choice`, `Quot.sound` (only those; no own axiom, no `sorry`,
  no `native_decide`, no `bv_decide`). The axioms of each theorem are listed at the end of this file.
* The hand translation from Python to Lean, guided by the citations. Nothing was run: the code was read.
* Python runtime behaviour that is assumed: dictionaries keep insertion order, `sorted` is a stable sort, `zip`
  truncates, `%` on ints is floor-mod, `str.split`, `str.join`, slicing and `isinstance` as documented.
* Library behaviour that is assumed where cited: `networkx` ancestors and topological order, `itertools`
  `compress`/`product`, `numpy` reductions on matrices as exact arithmetic, `pyDOE` full factorial designs, `sklearn`
  labels as an arbitrary function, `uuid` ids as fresh names.

## Not modelled

Below the package: networking, what the operating system does with a file beyond its content, the text encoding of JSON, the
internals of numpy, scipy, pyDOE, sklearn, openpyxl, xlsxwriter, docx, networkx, plot_data and volmdlr; warnings and prints;
rounding of floats, NaN and infinities (unless said at the definition); the recursion limit (unless said); threads.

Of the package, these functions have no definition in the model (every other one has one, with its citation):

* `abstract.py`: the methods of `CoreDessiaObject`, which all raise; `templates.py` and `templates/`: texts (but those of the
  Markdown of an object and of a dataset); `errors.py`, `warnings.py`: classes of exceptions.
* `core.py`: the module `__getattr__` of deprecated names, `plot`, `mpl_plot`, `performance_analysis`, the methods of
  `PhysicalObject` and `MovingObject` which call volmdlr, `FiltersList.from_filters_list` (the constructor under another name).
* `datatools`: the texts of the warnings of lists; `Dataset._plot_dimensionality` (matplotlib).
* `displays.py`: `draw_networkx_graph`; `excel_reader.py`: `close`; `files.py`: the texts of the templates of files.
* `forms.py`, `tests.py` (samples for the platform): the constructors, which store their arguments, and the drawings; the
  generators of structures of beams, of models and of random data, the drawings of beams and the reading of cars are modelled.
* `schemas/core.py`: `BackendReference` with `inject_reference`, the checks of `SubclassProperty` (which has no form), `parse_class_docstring`.
* `serialization.py`: `deserialize_with_type`, which nothing calls.
* `workflow/core.py`: `display_settings` and `to_markdown` of a `Workflow` (constants), `plot_graph` (matplotlib), `evaluate`.
* Classes which only exist at run time (generated classes, modules reloaded).

## Files and what each models

Definitions and theorems are counted per file; the citations of source lines are at each definition.

* `Checks/Bson.lean` (7 definitions, 0 theorems): Storage checks: stringified dictionary keys and BSON validity. Source: dessia_common/core.py 1104-1117, dessia_common/utils/types.py 235-271.
* `Checks/BsonProps.lean` (1 definitions, 28 theorems): C18, C22: BSON validity and stringified keys.
* `Checks/BsonSpec.lean` (7 definitions, 0 theorems): Specification vocabulary for stringified keys and BSON validity.
* `Checks/Model.lean` (12 definitions, 0 theorems): Checks and check lists. Source: dessia_common/checks.py 11-156.
* `Checks/Props.lean` (7 definitions, 15 theorems): C23, C24: check lists.
* `Data/Cluster.lean` (13 definitions, 0 theorems): Clustered datasets: sublists per cluster, centroids, point families, Pareto labels. Source: dessia_common/datatools/cluster.py 58-152, 254-327, 516-544. The clustering algorithms (scikit-learn), distances (scipy) and plots are not modelled.
* `Data/ClusterProps.lean` (4 definitions, 33 theorems): Specification and properties of clustered datasets (C44, C48, C92, C93, C98).
* `Data/Dataset.lean` (30 definitions, 0 theorems): Datasets and clustered datasets: selection, sum, sorting, common attributes, matrix. Source: dessia_common/datatools/dataset.py 90-184, 284-438, 558-586, cluster.py 58-100, core.py 633-645.
* `Data/DatasetProps.lean` (7 definitions, 31 theorems): Specification and properties of datasets (C45, C46, C47, C87, C88).
* `Data/Features.lean` (13 definitions, 0 theorems): The vector features of a class, and the vector of an object. Source: dessia_common/core.py 633-645, 1128-1142.
* `Data/FeaturesProps.lean` (7 definitions, 18 theorems): C180: the vector features of a class, and the vector of an object.
* `Data/Fit.lean` (4 definitions, 0 theorems): Clustering, distances and singular values of a dataset. Sources: dessia_common/datatools/cluster.py 327-514, 546-593; dessia_common/datatools/dataset.py 509-556, 588-626; dessia_common/datatools/metrics.py 202-213. The algorithms of scikit-learn, scipy and numpy are parameters.
* `Data/FitProps.lean` (5 definitions, 31 theorems): Properties C160 and C161: clustering, distances and singular values of a dataset.
* `Data/Frontier.lean` (8 definitions, 0 theorems): Pareto frontiers. Source: dessia_common/datatools/dataset.py 822-859. Numbers are the elements of an ordered field: the rounding of floats is not modelled.
* `Data/FrontierProps.lean` (3 definitions, 21 theorems): Specification and properties of Pareto frontiers (C156).
* `Data/GeometryProps.lean` (5 definitions, 23 theorems): C196: distances do not depend on the origin nor on the order of the coordinates and follow the unit; how the norms compare; the covariance follows the units and the sums.
* `Data/Mahalanobis.lean` (1 definitions, 0 theorems): The Mahalanobis distance. Source: dessia_common/datatools/metrics.py 216-237. Simplification: numbers are reals, and lists of n numbers are vectors, so that lengths agree.
* `Data/MahalanobisProps.lean` (5 definitions, 17 theorems): Property C167: the Mahalanobis distance.
* `Data/Metrics.lean` (12 definitions, 0 theorems): Norms, distances and moments. Source: dessia_common/datatools/metrics.py. Numbers are the elements of an ordered field, or reals where a root is taken: the rounding of floats is not modelled. `mahalanobis_distance` is in Data/Mahalanobis.lean.
* `Data/MetricsProps.lean` (3 definitions, 38 theorems): Specification and properties of distances and moments (C49, C50, C89, C97).
* `Data/Pareto.lean` (10 definitions, 0 theorems): Pareto points and Pareto sheets of a dataset. Source: dessia_common/datatools/dataset.py 795-820, 861-902, metrics.py 134-144. Numbers are the elements of an ordered field: the rounding of floats is not modelled.
* `Data/ParetoLaws.lean` (2 definitions, 13 theorems): Property C178: laws of Pareto fronts.
* `Data/ParetoParts.lean` (1 definitions, 9 theorems): Property C203: Pareto fronts by parts, point by point, and best compromises.
* `Data/ParetoProps.lean` (9 definitions, 29 theorems): Specification and properties of Pareto points and sheets (C43, C44).
* `Data/PartsLaws.lean` (3 definitions, 22 theorems): Laws of the parts of a dataset (C182): cut in two, reversed twice, shared out by a mask, selected again. The definitions they are about are in Verif/Data/Dataset.lean.
* `Data/Plot.lean` (12 definitions, 0 theorems): Axes of the parallel plot of a dataset. Source: dessia_common/datatools/dataset.py 691-780.
* `Data/PlotProps.lean` (7 definitions, 25 theorems): Specification and properties of the axes of parallel plots (C91).
* `Data/Print.lean` (10 definitions, 0 theorems): Printing a dataset. Source: dessia_common/datatools/dataset.py 186-262. Strings are lists of characters; `str(dataset)` is the list of its lines, which the code joins with line breaks.
* `Data/PrintProps.lean` (2 definitions, 17 theorems): Specification and properties of the printing of datasets (C94, C95).
* `Data/Samples.lean` (16 definitions, 0 theorems): Plots of a dataset: its samples, its scatter matrix, its parallel plot and its histogram. Sources: dessia_common/datatools/dataset.py 627-692; dessia_common/datatools/cluster.py 296-297, 307-327. The plots themselves belong to plot_data: they are data here.
* `Data/SamplesProps.lean` (3 definitions, 15 theorems): Property C162: plots of a dataset.
* `Data/Sampling.lean` (14 definitions, 0 theorems): Designs of experiments. Source: dessia_common/datatools/sampling.py, optimization.py 16-51. Simplifications: floats are exact rationals; a sample is the keyword arguments given to the sampled class; `number` is a natural number.
* `Data/SamplingProps.lean` (5 definitions, 27 theorems): Specification and properties of designs of experiments (C51, C90).
* `Data/SortLaws.lean` (4 definitions, 10 theorems): Laws of the sorting of datasets (C184): the order before does not matter, sorting again changes nothing, descending is ascending reversed. The definitions they are about are in Verif/Data/Dataset.lean.
* `Data/SortProps.lean` (8 definitions, 45 theorems): Specification and properties of the common attributes, the matrix, the sum and the sort of datasets (C46, C47, C88, C96).
* `Data/StatLawsProps.lean` (2 definitions, 18 theorems): Property C192: the statistics of datasets which are reordered or put together.
* `Data/Stats.lean` (7 definitions, 0 theorems): Statistics of a dataset and of its clusters. Sources: dessia_common/datatools/dataset.py 440-507; dessia_common/datatools/cluster.py 154-232.
* `Data/StatsProps.lean` (4 definitions, 27 theorems): Properties C148 and C149: statistics of a dataset and of its clusters.
* `Files/Excel.lean` (70 definitions, 0 theorems): Objects written to Excel files, and read from them. Source: dessia_common/exports.py 15-290, dessia_common/excel_reader.py 28-420, dessia_common/breakdown.py 34-118, dessia_common/core.py 283-300, 525-537. A workbook is the list of its sheets: what openpyxl stores of a cell is its value and the target of its link. Colours, borders and widths are left out. openpyxl renames a sheet whose title diffe
* `Files/ExcelBreak.lean` (7 definitions, 33 theorems): What the breakdown of an object lists, with the order of the dictionaries: every object below the root, in the list of its class.
* `Files/ExcelCatalog.lean` (14 definitions, 12 theorems): Catalogues of objects in Excel files. Source: dessia_common/excel_reader.py 16-28, 171-201, 288-303, 372-420.
* `Files/ExcelFlat.lean` (6 definitions, 18 theorems): Objects whose attributes are values, objects of values and lists of such objects, of as many classes, fit in tables.
* `Files/ExcelPath.lean` (3 definitions, 12 theorems): The paths of a breakdown lead to the objects they are given for.
* `Files/ExcelProps.lean` (18 definitions, 23 theorems): Properties of the Excel files of objects.
* `Files/ExcelRound.lean` (14 definitions, 55 theorems): An object which fits in tables is read from its Excel file as it was written.
* `Files/Streams.lean` (19 definitions, 0 theorems): Streams, files in memory, files on the disk, and scripts written in them. Source: dessia_common/files.py 8-109, dessia_common/workflow/core.py 1375-1386, 2251-2265. The module `io` is not part of the code: `Strm`, `Strm.write`, `Strm.read` and `newlines` are what it does. `β` are the bytes.
* `Files/StreamsProps.lean` (3 definitions, 21 theorems): Specification and properties of files and of scripts written in streams (C157, C158).
* `Filters/LawsProps.lean` (2 definitions, 10 theorems): Property C177: laws of filters.
* `Filters/Model.lean` (17 definitions, 0 theorems): Filters on lists of objects. Source: dessia_common/core.py 847-849, 880-954, 1043-1101.
* `Filters/Print.lean` (12 definitions, 0 theorems): Printing and comparing filters. Source: dessia_common/core.py 857-878, 975-995.
* `Filters/PrintProps.lean` (10 definitions, 26 theorems): C181: filters which are printed alike keep the same objects.
* `Filters/Props.lean` (3 definitions, 27 theorems): C25, C26: filters.
* `Filters/Spec.lean` (3 definitions, 0 theorems): Specification vocabulary for filters.
* `Misc/Beams.lean` (14 definitions, 0 theorems): ! The sample structures of beams of dessia_common/forms.py 774-910, with the references of their drawings. Simplifications: lengths are exact rationals; the generator of random numbers is any function of its turn and bounds; styles, labels and the extrusion of the drawings are dropped.
* `Misc/BeamsProps.lean` (4 definitions, 13 theorems): ! C202: structures of beams and the references of their drawings.
* `Misc/Breakdown.lean` (14 definitions, 0 theorems): Breakdown of objects. Source: dessia_common/breakdown.py 34-118 and 154-178.
* `Misc/BreakdownProps.lean` (6 definitions, 25 theorems): Specification and properties of breakdowns (C55).
* `Misc/Demo.lean` (19 definitions, 0 theorems): ! The sample data of the package: dessia_common/tests.py, which the modules of dessia_common/models give to the users. Simplifications: floats are exact rationals; the generator of random numbers is any function of the state of the run; the numeric characters and the text of floats are those of any function.
* `Misc/DemoProps.lean` (11 definitions, 21 theorems): ! C200: the random sample data; C201: the cars of a file.
* `Misc/Docx.lean` (26 definitions, 0 theorems): Word documents made from a markdown text. Sources: dessia_common/document_generator.py 88-152, 175-224, 273-326; dessia_common/core.py 539-555. The package `docx` is not part of the code: a document is the list of what is added to it, and a heading has a level between 0 (a title) and 9 (otherwise `add_heading` raises ValueError).
* `Misc/DocxBuild.lean` (32 definitions, 0 theorems): Building a Word document piece by piece. Source: dessia_common/document_generator.py 14-86, 118-270. The document itself belongs to python-docx: its body is the list of what was added, its header and its footer are the lists of their paragraphs.
* `Misc/DocxBuildProps.lean` (7 definitions, 24 theorems): Property C163: a Word document built piece by piece.
* `Misc/DocxProps.lean` (13 definitions, 30 theorems): Property C142: Word documents.
* `Misc/Generation.lean` (15 definitions, 0 theorems): Generation of solutions along a decision tree. Source: dessia_common/generation.py. The package `dectree` is not part of the code: `bump`, `Regular.next` and `Decision.next` give the order in which its trees are walked by `NextNode`, first the children of a node, then the nodes after it, when each level has at least one possibility. The three other orders (`NextSortedNode`, `NextUniqueNode`, `Next
* `Misc/GenerationLemmas.lean` (6 definitions, 15 theorems): Lemmas on the walk of decision trees.
* `Misc/GenerationProps.lean` (12 definitions, 32 theorems): Properties C143_regular, C144_decision and C145: generation of solutions along a decision tree.
* `Misc/Markdown.lean` (19 definitions, 0 theorems): The Markdown of objects. Sources: dessia_common/exports.py 290-431; dessia_common/core.py 462-466; dessia_common/templates.py 4-20.
* `Misc/MarkdownProps.lean` (11 definitions, 29 theorems): Property C171: the Markdown of objects.
* `Misc/Numbers.lean` (31 definitions, 0 theorems): Parameters, interpolation, factorisations and optimization vectors. Source: dessia_common/core.py 762-818, dessia_common/utils/interpolation.py, dessia_common/utils/algebra.py, dessia_common/optimization.py. Simplification: floats are exact rationals.
* `Misc/NumbersProps.lean` (2 definitions, 49 theorems): Properties C52, C53, C54, C61, C81, C82 and C83.
* `Misc/Optimize.lean` (9 definitions, 0 theorems): Optimizations: the model and the cost they return. Source: dessia_common/optimization.py 93-169. The searches belong to scipy and cma: they are parameters. Simplification: floats are exact rationals.
* `Misc/OptimizeProps.lean` (7 definitions, 10 theorems): Property C166: what an optimization returns.
* `Misc/Regions.lean` (15 definitions, 0 theorems): Cutting the final branches of a graph, and extracting a region of it. Source: dessia_common/graph.py 15-52. networkx is a contract: graphs are lists of nodes and edges, without repetitions.
* `Misc/RegionsProps.lean` (6 definitions, 29 theorems): Properties C164 and C165: final branches and regions of graphs.
* `Misc/RunMarkdown.lean` (12 definitions, 0 theorems): The Markdown of the runs and of the states of workflows. Sources: dessia_common/workflow/core.py 1577-1636, 2057-2063, 2127-2132, 2267-2279; dessia_common/templates.py 87-110.
* `Misc/RunMarkdownProps.lean` (4 definitions, 14 theorems): C212: the Markdown of a run has one line for each block that was evaluated, with the memory before and after its last evaluation.
* `Misc/Text.lean` (37 definitions, 0 theorems): Names, files, scripts, tables, sheets and display settings. Source: dessia_common/utils/helpers.py 41-53, files.py 37-48 and 96-106, core.py 216-226, 1211-1216, workflow/utils.py 14-48, exports.py 293-387, excel_reader.py, displays.py 15-82, schemas/core.py 327-334.
* `Misc/TextProps.lean` (6 definitions, 48 theorems): Properties C56, C57, C58, C59, C60, C62, C63, C84, C85 and C86.
* `Misc/Visjs.lean` (18 definitions, 0 theorems): The data shown for a graph. Source: dessia_common/displays.py 108-160. The package `networkx` is not part of the code: a graph is the list of its nodes, without repetition, and the list of its edges, each with its attributes. The positions computed by `kamada_kawai_layout` are given.
* `Misc/VisjsProps.lean` (6 definitions, 7 theorems): Property C146: the data shown for a graph.
* `Schemas/CheckProps.lean` (3 definitions, 18 theorems): Property C130: what the checks of a class tell.
* `Schemas/ClassDocProps.lean` (2 definitions, 4 theorems): C133, on the schemas of classes: what a schema shows of the docstring of its class.
* `Schemas/ClassProps.lean` (15 definitions, 33 theorems): Property C131: which classes have a form, and what the form of a class shows.
* `Schemas/ContentProps.lean` (15 definitions, 17 theorems): Property C131: what the form asks for, from the annotation.
* `Schemas/DefaultProps.lean` (7 definitions, 15 theorems): Property C132: the default values of a class.
* `Schemas/Docstring.lean` (17 definitions, 0 theorems): Parsing of docstrings. Source: dessia_common/schemas/core.py 33-35, 353-359, 1894-1939.
* `Schemas/DocstringProps.lean` (16 definitions, 30 theorems): Property C133: the documentation of attributes in schemas.
* `Schemas/FormProps.lean` (13 definitions, 30 theorems): Property C131: the form of a class.
* `Schemas/Methods.lean` (11 definitions, 0 theorems): The schemas of the methods of an object. Sources: dessia_common/core.py 168-188; dessia_common/schemas/core.py 417-436.
* `Schemas/MethodsProps.lean` (5 definitions, 14 theorems): Property C169: the schemas of the methods of an object.
* `Schemas/Model.lean` (69 definitions, 0 theorems): Schemas of classes: forms, default values and checks. Source: dessia_common/schemas/core.py 24-31, 83-228, 230-414, 495-1659, 1706-1835.
* `Types/Annot.lean` (38 definitions, 0 theorems): Strings of annotations. Source: dessia_common/schemas/core.py 500-1116 (serialized, annotation_from_serialized), 1183, 1241, 1326, 1382, 1424-1429, 1484-1489, 1509-1518, 1548-1553, 1629-1648, 1706-1770, 1855-1884; utils/helpers.py 65-80.
* `Types/AnnotProps.lean` (12 definitions, 74 theorems): Specification and properties of strings of annotations (C19, C20).
* `Types/Args.lean` (9 definitions, 0 theorems): Arguments of functions and their default values. Source: dessia_common/schemas/core.py 350-369, 1662-1703.
* `Types/ArgsProps.lean` (5 definitions, 18 theorems): Specification and properties of default arguments (C21, C101, C102).
* `Types/Arguments.lean` (24 definitions, 0 theorems): Reading of the arguments of a method from a document. Sources: dessia_common/serialization.py 66-73, 372-477; dessia_common/core.py 190-214; utils/types.py 24-43.
* `Types/ArgumentsProps.lean` (13 definitions, 50 theorems): C113, C114, C116: arguments read from documents.
* `Types/ChainProps.lean` (5 definitions, 14 theorems): Property C190: matches of types can be chained.
* `Types/Checks.lean` (4 definitions, 0 theorems): Checks of the types of pipes and of values. Source: dessia_common/workflow/core.py 1270-1284, 2356-2369.
* `Types/ChecksProps.lean` (5 definitions, 7 theorems): Property C170: checks of types.
* `Types/Match.lean` (16 definitions, 1 theorems): Matching of types. Source: dessia_common/utils/types.py 296-386, schemas/core.py 1773-1778, 1844-1852.
* `Types/MatchProps.lean` (12 definitions, 36 theorems): Specification and properties of the matching of types (C16, C17).
* `Types/OldTyping.lean` (11 definitions, 0 theorems): The former reading of the strings of annotations. Source: dessia_common/utils/types.py 21, 128-232; schemas/core.py 1835-1839.
* `Types/OldTypingProps.lean` (8 definitions, 25 theorems): Property C172: the former reading of the strings of annotations.
* `Types/Variables.lean` (4 definitions, 0 theorems): Matchable variables of a workflow. Source: dessia_common/workflow/core.py 1108-1166.
* `Types/VariablesProps.lean` (1 definitions, 5 theorems): Specification and properties of matchable variables (C99).
* `Util/PyDict.lean` (1 definitions, 7 theorems): Python dictionaries as association lists in insertion order (model of a built-in type, no file of /repo).
* `Util/PyList.lean` (7 definitions, 8 theorems): Python list primitives used all over the code: subscripts with negative indices, slices, `insert`, `del`, `remove`. Trusted: these follow the semantics of CPython lists.
* `Util/Sort.lean` (2 definitions, 4 theorems): A stable sort, standing for Python's builtin `sorted` (used in /repo/dessia_common/utils/diff.py 216 and others).
* `Util/Str.lean` (3 definitions, 11 theorems): Python strings as lists of characters (model of a built-in type, no file of /repo).
* `Values/Basic.lean` (10 definitions, 0 theorems): Values handled by dessia_common, as finite trees. Sources modelled (paths relative to /repo): * dessia_common/core.py 60-144 (class level configuration of a DessiaObject) * dessia_common/serialization.py 29-48 (`_serializable_dict`) * dessia_common/files.py 8-114, dessia_common/measures.py 13-35
* `Values/ClassNames.lean` (10 definitions, 0 theorems): Finding a class from its full name, with the cache of the classes already found. Sources: dessia_common/utils/helpers.py 19, 65-80; dessia_common/utils/types.py 24-43.
* `Values/ClassNamesProps.lean` (3 definitions, 20 theorems): C210: the class found for a name.
* `Values/ContextProps.lean` (2 definitions, 15 theorems): Property C197: equality and hash of wholes follow from those of their parts.
* `Values/Copy.lean` (11 definitions, 0 theorems): Copies of objects. Sources: dessia_common/utils/copy.py 11-106, dessia_common/core.py 318-363.
* `Values/CopyAgainProps.lean` (1 definitions, 13 theorems): Property theorems on copies of copies: C198.
* `Values/CopyLemmas.lean` (3 definitions, 20 theorems): Helper lemmas for Verif/Values/CopyProps.lean.
* `Values/CopyProps.lean` (2 definitions, 13 theorems): Property theorems on copies: C08, C71, C72.
* `Values/CopySpec.lean` (8 definitions, 0 theorems): Specification vocabulary for copies.
* `Values/Diff.lean` (11 definitions, 2 theorems): Model of dessia_common/utils/diff.py 13-172 (`Diff`, `diff`, `dict_diff`, `sequence_diff`).
* `Values/DiffLemmas.lean` (3 definitions, 45 theorems): Helper lemmas for Verif/Values/DiffProps.lean.
* `Values/DiffPlaceProps.lean` (1 definitions, 13 theorems): Property C191: a change at one place shows only at this place in a diff.
* `Values/DiffProps.lean` (1 definitions, 14 theorems): Property theorems on `diff`: C05, C06, C07, C67, C68, C69, C70.
* `Values/DiffRaisesProps.lean` (1 definitions, 6 theorems): C70: where the diff of two values raises an error.
* `Values/DiffSpec.lean` (13 definitions, 0 theorems): Specification of the paths reported by a diff, and of the values its theorems range over.
* `Values/DiffSwapProps.lean` (6 definitions, 17 theorems): Property C193: exchanging the two values of a diff.
* `Values/Emit.lean` (32 definitions, 0 theorems): Serialization with pointers: `to_dict(use_pointers=True)`. Sources: dessia_common/serialization.py 50-64, 127-256; dessia_common/utils/helpers.py 110-193. The dictionaries and lists made by the serialization are shared between the result, the memo and the references, and are changed in place at the end (`add_references`): they are cells of a heap.
* `Values/EmitFail.lean` (1 definitions, 8 theorems): C13: `to_dict` does not accept more than the pointer-free serialization.
* `Values/EmitLemmas.lean` (8 definitions, 22 theorems): Helper lemmas for Verif/Values/EmitProps.lean: strings, dictionaries, and the monotony of reading.
* `Values/EmitMain.lean` (7 definitions, 31 theorems): Helper lemmas for Verif/Values/EmitProps.lean: the serialization before the references are added.
* `Values/EmitProps.lean` (7 definitions, 20 theorems): C13: pointer serialization loses nothing.
* `Values/EmitRefs.lean` (9 definitions, 41 theorems): Helper lemmas for Verif/Values/EmitProps.lean: adding the references.
* `Values/EmitShape.lean` (8 definitions, 24 theorems): Helper lemmas for Verif/Values/EmitProps.lean: the result of `to_dict` is finite JSON data.
* `Values/EmitSpec.lean` (5 definitions, 0 theorems): Specification of serialized values with pointers.
* `Values/Equality.lean` (18 definitions, 0 theorems): Data equality, hash and `==` of dessia_common. Sources: dessia_common/core.py 110-144, 1143-1208; dessia_common/utils/diff.py 175-229.
* `Values/EqualityLemmas.lean` (0 definitions, 19 theorems): Helper lemmas for Verif/Values/EqualityProps.lean.
* `Values/EqualityMain.lean` (0 definitions, 22 theorems): Main lemmas on data equality and hash, used in Verif/Values/EqualityProps.lean.
* `Values/EqualityProps.lean` (3 definitions, 20 theorems): Property theorems on data equality, `==` and hash: C01, C02, C03, C04, C64, C65, C66.
* `Values/EqualitySpec.lean` (19 definitions, 0 theorems): Specification of "the two values hold the same data", independent of the code's functions.
* `Values/File.lean` (14 definitions, 0 theorems): Objects saved in JSON files and streams, and read from them. Sources: dessia_common/core.py 215-281; dessia_common/files.py 8-114. The modules `json` and `io` are not part of the code: `jsonLeaf`, `jsonEntries` and `dumpV` give what `json.load` reads in what `json.dump` writes.
* `Values/FileLemmas.lean` (3 definitions, 28 theorems): Helper lemmas for Verif/Values/FileProps.lean.
* `Values/FileProps.lean` (2 definitions, 8 theorems): Properties C140 and C141: objects in JSON files.
* `Values/GraphElements.lean` (5 definitions, 0 theorems): ! `pointer_graph_elements`, which lists the places of a document and the links between them: serialization.py 676-731. Simplification: paths are lists of segments, as in `Pointers.lean`; the old mark of references is not modelled.
* `Values/GraphElementsProps.lean` (5 definitions, 28 theorems): Property C204: what `pointer_graph_elements` lists.
* `Values/IsSer.lean` (6 definitions, 0 theorems): Whether an object can be serialized. Sources: dessia_common/serialization.py 787-804; dessia_common/utils/types.py 46-53.
* `Values/IsSerProps.lean` (3 definitions, 19 theorems): Property C147: is_serializable tells which values can be serialized.
* `Values/LoadDeser.lean` (2 definitions, 8 theorems): Helper lemmas for Verif/Values/LoadProps.lean: reading a part of a document.
* `Values/LoadLemmas.lean` (1 definitions, 21 theorems): Helper lemmas for Verif/Values/LoadProps.lean.
* `Values/LoadOrder.lean` (0 definitions, 23 theorems): Helper lemmas for Verif/Values/LoadProps.lean: the order in which a document is read.
* `Values/LoadSpec.lean` (4 definitions, 0 theorems): Specification of reading a document with references.
* `Values/OrderProps.lean` (10 definitions, 32 theorems): The order in which attributes and dictionary entries were set does not matter (C185): for equality, hash, saving and loading. The definitions it is about are in Verif/Values/Equality.lean, Serialize.lean and Pointers.lean.
* `Values/PathLaws.lean` (5 definitions, 40 theorems): Laws of deep access by path (C183): reading in two steps, writing twice, writing what was read, writing in any order. The definitions they are about are in Verif/Values/Paths.lean.
* `Values/Paths.lean` (17 definitions, 0 theorems): Deep access to values by path. Sources: dessia_common/utils/helpers.py 83-193.
* `Values/PathsIndexProps.lean` (0 definitions, 6 theorems): C09, on the segments of sequences: which element an index designates.
* `Values/PathsLemmas.lean` (3 definitions, 27 theorems): Helper lemmas for Verif/Values/PathsProps.lean.
* `Values/PathsProps.lean` (1 definitions, 6 theorems): C09, C10: reading and writing at a path. The functions are `getPath` (get_in_object_from_path) and `setPath` (set_in_object_from_path, returning the mutated root); `ev` is their argument `evaluate_pointers`.
* `Values/PathsSpec.lean` (4 definitions, 0 theorems): Specification vocabulary for deep access by path.
* `Values/PointerStats.lean` (7 definitions, 0 theorems): Statistics on the pointers of an object. Source: dessia_common/serialization.py 734-785.
* `Values/PointerStatsProps.lean` (9 definitions, 9 theorems): Property C168: statistics on the pointers of an object.
* `Values/Pointers.lean` (21 definitions, 0 theorems): JSON pointers: analysis of a serialized value and order of deserialization. Sources: dessia_common/serialization.py 480-673, dessia_common/graph.py 7-12.
* `Values/PointersLemmas.lean` (2 definitions, 31 theorems): Helper lemmas for Verif/Values/PointersProps.lean.
* `Values/PointersProps.lean` (2 definitions, 13 theorems): C14, C15: analysis of the JSON pointers of a serialized value. `pointerGraph fuel v` is `pointer_graph(v)`, its loops being stopped after `fuel` steps (`.ok none`); `deserializationOrder fuel v` is `deserialization_order(v)`.
* `Values/PointersSpec.lean` (5 definitions, 0 theorems): Specification vocabulary for JSON pointers.
* `Values/RecType.lean` (7 definitions, 0 theorems): The type told for a value, and reading a value with its type.
* `Values/RecTypeProps.lean` (4 definitions, 15 theorems): Property C207: the type told for a value, and reading with it.
* `Values/Serialize.lean` (23 definitions, 0 theorems): Serialization and deserialization of values, without emitting pointers. Sources: dessia_common/serialization.py 35-124, 259-351; dessia_common/utils/types.py 24-53; dessia_common/measures.py 18-27; dessia_common/utils/helpers.py 65-80.
* `Values/SerializeLemmas.lean` (1 definitions, 33 theorems): Helper lemmas for Verif/Values/SerializeProps.lean.
* `Values/SerializeProps.lean` (3 definitions, 10 theorems): Property theorems on serialization without pointers: C11, C12, C73.
* `Values/SerializeSpec.lean` (11 definitions, 0 theorems): Specification vocabulary for serialization.
* `Values/StableProps.lean` (0 definitions, 9 theorems): Property C179: saving what was loaded or copied gives the same document.
* `Values/WrittenLemmas.lean` (0 definitions, 17 theorems): Helper lemmas for Verif/Values/WrittenProps.lean.
* `Values/WrittenProps.lean` (8 definitions, 17 theorems): C105: an object saved with pointers is read back as an equal object; C106: reading of documents with references.
* `Values/WrittenSpec.lean` (2 definitions, 0 theorems): Specification of the writing of the dictionary of an object.
* `Views/DisplayProps.lean` (11 definitions, 24 theorems): Property C135: the displays of an object are those of its decorated methods.
* `Views/ExportProps.lean` (10 definitions, 28 theorems): Property C136: the exports of an object call its decorated methods, under their selectors.
* `Views/Lemmas.lean` (4 definitions, 11 theorems): The methods found by their decorators, for classes written as usual.
* `Views/Model.lean` (57 definitions, 0 theorems): Displays and exports declared by decorators. Source: dessia_common/decorators.py, core.py 399-460, 556-632, 739-746.
* `Views/Platform.lean` (12 definitions, 0 theorems): The checks of an object before it is put on the platform. Source: dessia_common/checks.py 159-254, core.py 302-316, 493-523.
* `Views/PlatformProps.lean` (9 definitions, 22 theorems): Property C137: the checks of the platform tell what fails.
* `Workflow/AgainProps.lean` (1 definitions, 3 theorems): Property C153: a completed run is run again with the values it holds, or from a document.
* `Workflow/Arguments.lean` (9 definitions, 0 theorems): The arguments of a run, read from a document. Source: dessia_common/workflow/core.py 811-830.
* `Workflow/ArgumentsProps.lean` (3 definitions, 18 theorems): Property C115: the arguments of a run which are read from a document.
* `Workflow/BlockDictProps.lean` (4 definitions, 13 theorems): C195: what the dict of a block tells.
* `Workflow/BlockDocs.lean` (16 definitions, 0 theorems): The descriptions of the inputs of workflows. Source: dessia_common/workflow/core.py 212-224, 702-704, 710-726, 1048-1076; dessia_common/workflow/blocks.py 122-129, 188-195, 270-277, 426-434, 509-515; dessia_common/schemas/core.py 33-35.
* `Workflow/BlockDocsProps.lean` (8 definitions, 26 theorems): Property C173: the descriptions of the inputs of workflows.
* `Workflow/Blocks.lean` (38 definitions, 0 theorems): Evaluation of the standard blocks. Source: dessia_common/workflow/blocks.py, dessia_common/utils/helpers.py 22-38, dessia_common/files.py 211-221, workflow/core.py 832-843, 1286-1299. A block receives a dictionary from its input variables to their values, filled in the order of the ports by `_evaluate_block` (workflow/core.py 2047-2057): an association list here.
* `Workflow/BlocksProps.lean` (9 definitions, 60 theorems): Properties C38, C39, C41, C79 and C80: standard blocks, default arguments and package mix.
* `Workflow/BranchProps.lean` (1 definitions, 11 theorems): C109, C110: the branch of a block, and the inputs upstream of a variable.
* `Workflow/Callback.lean` (7 definitions, 0 theorems): What the callback of a run is told, and running again a completed run. Source: dessia_common/workflow/core.py 1235-1264, 1928-1969, 2039-2068, 2200-2203; dessia_common/workflow/blocks.py 255-264. The callback `cb` may raise; `tells i xs` are the values which the method called by block `i` tells itself, given the values of the inputs of the block. The functions are those of `Workflow/Engine.lean`, 
* `Workflow/CallbackProps.lean` (3 definitions, 23 theorems): Properties C152 and C153: what the callback of a run is told; running again a completed run.
* `Workflow/Calls.lean` (15 definitions, 0 theorems): Blocks that call a class, a class method, a static method or a method of their first input: their inputs and their evaluation. Source: dessia_common/workflow/blocks.py 32-50, 91-95, 112-115, 145-151, 183-186, 215-227, 255-264, 722-739.
* `Workflow/CallsProps.lean` (14 definitions, 35 theorems): Specification and properties of blocks that call a function (C154, C155).
* `Workflow/Catalogue.lean` (123 definitions, 0 theorems): The classes of blocks of the library, one by one: construction, dicts, copies, comparison, hashes, scripts and evaluation. Sources: dessia_common/workflow/blocks.py 80-1579; dessia_common/workflow/core.py 46-60, 102-126, 140-152, 176-252; dessia_common/typings.py 26-133; dessia_common/core.py 347-363, 850-878; dessia_common/serialization.py 40-124, 290-351; dessia_common/utils/copy.py 12-100. A bl
* `Workflow/CatalogueProps.lean` (12 definitions, 41 theorems): C120-C123: blocks are read as they were written; equivalent blocks compute the same; the declaration of a block in a script builds it; a copied block computes the same.
* `Workflow/CatalogueRead.lean` (8 definitions, 19 theorems): C120: a block written as a dict and read again.
* `Workflow/CatalogueSame.lean` (6 definitions, 33 theorems): C121 and C123: equivalent blocks compute the same and have the same hash; a copy computes what its block computes.
* `Workflow/CatalogueScript.lean` (3 definitions, 15 theorems): C122: the declaration of a block in a script builds the block.
* `Workflow/Display.lean` (35 definitions, 0 theorems): Branches of a workflow, pipes memorized for the displays and exports, and displays of the blocks of a run. Source: dessia_common/workflow/core.py 379-401, 447-475, 615-665, 674-689, 895-937, 1011-1012, 1034-1046, 1892-1913, 1971-1987, 2084-2091, 2108-2120, 2143-2174.
* `Workflow/DisplayEnd.lean` (10 definitions, 37 theorems): C108 to C112: concrete cases, selectors, reference paths.
* `Workflow/DisplayLemmas.lean` (0 definitions, 4 theorems): Lemmas on the branches of a workflow.
* `Workflow/DisplayProps.lean` (7 definitions, 32 theorems): C108: displays and exports of a completed run.
* `Workflow/EachProps.lean` (13 definitions, 20 theorems): Property C189: a `ForEach` block runs its workflow on each element, and two of them in a row are one on the two workflows in a row.
* `Workflow/Engine.lean` (31 definitions, 0 theorems): Execution of a workflow. Source: dessia_common/workflow/core.py 1227-1264, 1640-1673, 1858-1876, 1915-2091.
* `Workflow/EqualProps.lean` (8 definitions, 19 theorems): What `==` of workflows tells of the workflows compared. Source: dessia_common/workflow/core.py 102-106, 194-211, 304-315, 475-499, 521-529; blocks.py 95-103, 158-169, 306-312, 543-556, 581-583.
* `Workflow/Examples.lean` (8 definitions, 3 theorems): Concrete workflows, used to show that the hypotheses of the theorems are met and as counterexamples.
* `Workflow/Form.lean` (18 definitions, 0 theorems): The form of a run (`method_schemas["run"]`), and the edition of inputs. Sources: dessia_common/workflow/core.py 62-91, 705-755, 1556-1577; dessia_common/schemas/core.py 83-215. Simplifications: the schema of a property is the pair of its attribute and its annotation; texts of documentation of the inputs, `group_id` and `id_` are left out; the titles computed from the names of blocks and variables 
* `Workflow/FormProps.lean` (13 definitions, 44 theorems): Properties C117 and C118: the form of a run, and the edition of inputs.
* `Workflow/FrameLemmas.lean` (5 definitions, 27 theorems): What the steps of the engine leave unchanged, without any hypothesis on the workflow.
* `Workflow/Interactive.lean` (8 definitions, 0 theorems): Giving values to the inputs of a state. Source: dessia_common/workflow/core.py 1102-1106, 1858-1882. Simplifications: indices are natural numbers, and the keys of the values of `add_block_input_values`, which the code converts with `int`, are already integers.
* `Workflow/InteractiveProps.lean` (8 definitions, 27 theorems): Property C159: giving the values of the inputs to a state.
* `Workflow/InvLemmas.lean` (2 definitions, 21 theorems): The invariant of the states reached in the execution of a well formed workflow.
* `Workflow/LawsProps.lean` (9 definitions, 33 theorems): Properties C174, C175 and C176: what the result of a run depends on.
* `Workflow/Layout.lean` (12 definitions, 0 theorems): Layout of a workflow in columns. Source: dessia_common/workflow/core.py 417-419, 1172-1209, dessia_common/graph.py 55-100. A node of the layout is designated by its index in `Workflow.nodes`: blocks first, then non-block variables.
* `Workflow/LayoutLemmas.lean` (7 definitions, 31 theorems): Specification of paths and of what networkx answers, and lemmas on the placement in columns. No file of /repo is modelled here.
* `Workflow/LayoutProps.lean` (10 definitions, 20 theorems): C134: in the layout of a workflow, each block comes after those on which it depends.
* `Workflow/LineageProps.lean` (2 definitions, 23 theorems): C208: any history of copies and of savings of a workflow gives workflows which compute the same.
* `Workflow/MakeProps.lean` (0 definitions, 2 theorems): Property C205: what a new workflow is.
* `Workflow/Model.lean` (34 definitions, 0 theorems): Structure of a workflow and look-ups in it. Source: dessia_common/workflow/core.py 46-100, 176-275, 345-474, 845-1107. Variables are compared by identity in the code (`_eq_is_data_eq = False`): they are natural numbers here. Blocks and pipes are designated by their index in the lists of the workflow (a block or pipe object listed twice is not represented). `α` is the type of the values which flow 
* `Workflow/NextProps.lean` (2 definitions, 9 theorems): Property C77: evaluating the blocks one by one.
* `Workflow/Offers.lean` (37 definitions, 0 theorems): The displays and exports which a run offers by their selectors. Source: dessia_common/workflow/core.py 650-665, 679-689, 1884-1890, 2093-2125, 2182-2198, 2281-2299, workflow/blocks.py 716-721, 1460-1464, 1525-1529, core.py 432-460, 617-632.
* `Workflow/OffersProps.lean` (11 definitions, 31 theorems): Properties C138 and C139: the displays and exports which a run offers show and write what their blocks give.
* `Workflow/OldDict.lean` (4 definitions, 0 theorems): Documents of workflows written by former versions: values imposed to variables, and entries which may be missing.
* `Workflow/OldDictProps.lean` (4 definitions, 21 theorems): Property C206: documents of workflows of former versions.
* `Workflow/OldNames.lean` (3 definitions, 0 theorems): Documents of archives of former versions, which name the ports of the block: `set_block_variable_names_from_dict`, workflow/blocks.py 61-73.
* `Workflow/OldNamesProps.lean` (2 definitions, 7 theorems): C211: documents of archives which name the ports of the block.
* `Workflow/Persist.lean` (55 definitions, 0 theorems): Serialization, deserialization, copy, hash and equality of workflows. Source: dessia_common/workflow/core.py 46-342, 364-613, 757-809, 845-851, 947-949, 1048-1101, 2302-2353, and the `dict_to_object`, `equivalent` and `equivalent_hash` methods of the blocks in dessia_common/workflow/blocks.py. Variables are objects compared by identity: a variable is an index in a store, the list of all the variab
* `Workflow/PersistCopy.lean` (2 definitions, 9 theorems): Lemmas on the copy of workflows.
* `Workflow/PersistCopyProps.lean` (3 definitions, 27 theorems): Properties of the copy of workflows: C37.
* `Workflow/PersistLemmas.lean` (9 definitions, 22 theorems): Specification and lemmas for the serialization and the copy of workflows.
* `Workflow/PersistProps.lean` (8 definitions, 21 theorems): Properties of the serialization of workflows: C36.
* `Workflow/PersistRound.lean` (4 definitions, 11 theorems): Proof that a workflow read back from its dict is a replica of it.
* `Workflow/PortsProps.lean` (7 definitions, 20 theorems): C194: the ports of a new block.
* `Workflow/Props.lean` (2 definitions, 49 theorems): Properties of the execution of workflows: C27 to C32, C35, C40, C42, C75, C76.
* `Workflow/PushLemmas.lean` (4 definitions, 17 theorems): Effect of the propagation of a value along the pipes.
* `Workflow/ReplaceProps.lean` (5 definitions, 20 theorems): Properties C187 and C188: pipes and blocks replaced by what they give, and variables replaced by others.
* `Workflow/RunLemmas.lean` (1 definitions, 29 theorems): Completion of the runs.
* `Workflow/RunScript.lean` (22 definitions, 0 theorems): The scripts of runs (`WorkflowRun.to_script`), and what they do when they are run. Sources: dessia_common/workflow/core.py 2205-2249; dessia_common/workflow/utils.py 81-121. The script of a run is the script of its workflow (Workflow/Script.lean), followed by one assignment per value and by the dictionary which is given to `run`. What is written of a value is a text.
* `Workflow/RunScriptLemmas.lean` (6 definitions, 26 theorems): Lemmas for Verif/Workflow/RunScriptProps.lean.
* `Workflow/RunScriptProps.lean` (21 definitions, 57 theorems): Properties of the scripts of runs: C129.
* `Workflow/RunSim.lean` (2 definitions, 20 theorems): Whole runs on a workflow and on the same workflow with other variables.
* `Workflow/RuntimeLemmas.lean` (1 definitions, 12 theorems): The blocks which lead to the output.
* `Workflow/Saved.lean` (13 definitions, 0 theorems): A state of execution written in a dict and read back. Source: dessia_common/workflow/core.py 426-438, 1577-1635, 1748-1856.
* `Workflow/SavedEnd.lean` (10 definitions, 29 theorems): Executions which are saved, restored and then continued.
* `Workflow/SavedLemmas.lean` (4 definitions, 32 theorems): Invariant of the executions which are saved and restored on the way.
* `Workflow/SavedProps.lean` (3 definitions, 21 theorems): C107: a run which is saved and restored on the way.
* `Workflow/SavedRound.lean` (4 definitions, 24 theorems): The state read from the dict of a state, on the workflow read from the dict of the workflow.
* `Workflow/Script.lean` (54 definitions, 0 theorems): The scripts of workflows (`to_script`), and what they do when they are run. Sources: dessia_common/workflow/core.py 140-167, 232-234, 1301-1373; dessia_common/workflow/utils.py 15-79; the `_to_script` methods and the constructors of dessia_common/workflow/blocks.py 384-396, 436-476, 517-526. A script is a list of statements, and a Python process runs it: a statement is here the tree of what is wri
* `Workflow/ScriptLemmas.lean` (16 definitions, 67 theorems): What is stated on the scripts of workflows, and lemmas for Verif/Workflow/ScriptProps.lean.
* `Workflow/ScriptProps.lean` (15 definitions, 21 theorems): Properties of the scripts of workflows: C119.
* `Workflow/ScriptRuns.lean` (0 definitions, 24 theorems): The execution of the script of a workflow.
* `Workflow/SessionProps.lean` (2 definitions, 8 theorems): C209: whatever was done before, a session of evaluation can be completed, with the result of the run.
* `Workflow/Spec.lean` (9 definitions, 0 theorems): Specification vocabulary for workflows.
* `Workflow/StateCopy.lean` (19 definitions, 0 theorems): Copy, hash and equality of the states of execution, and of the runs. Source: dessia_common/workflow/core.py 1577-1597, 1675-1741, 1915-1926, 2084-2091, 2140-2146.
* `Workflow/StateCopyLemmas.lean` (4 definitions, 35 theorems): What the copy of a state of execution holds.
* `Workflow/StateCopyProps.lean` (21 definitions, 26 theorems): C127 and C128. What a copied state of execution is and does, and when states compare equal. Specification. `Sim ρ W W' s s'` (`StateSim.lean`): the state `s'` of `W'` holds the same values on inputs and pipes as the state `s` of `W`, has the same active variables, blocks and pipes, the same output and the same evaluations; `ρ` gives the variable of `W'` of each variable of `W`. `Both R x y`: both 
* `Workflow/StateSim.lean` (5 definitions, 42 theorems): Executions on a workflow and on the same workflow with other variables.
* `Workflow/StepDisplay.lean` (11 definitions, 0 theorems): Displays offered at the steps of a workflow, and computation of the display of a step. Source: dessia_common/workflow/core.py 91-98, 1393-1416, 1498-1548. The structure of the workflow is `W`, its steps are those of `e`; `avail` gives the `available_display_settings` of each variable (91-98), `label` its label.
* `Workflow/StepDisplayProps.lean` (8 definitions, 40 theorems): Properties C150 and C151: displays offered and computed at the steps of a workflow.
* `Workflow/StepEditProps.lean` (1 definitions, 13 theorems): Property theorems on what each edition of the steps changes: C199.
* `Workflow/Steps.lean` (25 definitions, 0 theorems): Edition of the steps of a workflow. Source: dessia_common/workflow/core.py 282-342, 364-409, 1418-1518, 1550-1554. The steps are mutable objects which the list `steps` of the workflow refers to: they are kept in a store indexed by their identity. An edition returns the new state and the error raised, if any: what was changed before the error stays changed. Variables are natural numbers, compared b
* `Workflow/StepsLemmas.lean` (3 definitions, 23 theorems): Lemmas on the edition of steps.
* `Workflow/StepsProps.lean` (5 definitions, 28 theorems): Properties C33, C34 and C78: edition of the steps of a workflow.
* `Workflow/StructLemmas.lean` (0 definitions, 26 theorems): Structure of a workflow: variables, inputs, addresses.
* `Workflow/ThroughProps.lean` (5 definitions, 15 theorems): Property C75: values through free variables.
* `Workflow/UnfoldProps.lean` (13 definitions, 53 theorems): Property C186: a workflow used as a block of another one gives what its blocks give in its place.

## Plan and result per property

Each line gives what is modelled and how it is proved; then the theorems. A theorem `_violated` is a disagreement between the
property and the code, proved on a witness; a theorem `_partial` proves the part of the statement which holds.

### C01 Data equality is reflexive — proved

Value tree model (PyVal); data_eq mirrored branch by branch; structural induction.

* `C01_dataEq_refl`: C01. Every well formed value is data-equal to itself.
* `C01_obj_eq_refl`: C01. Every object is `==` to itself (and the comparison does not raise).

### C02 Data equality is symmetric — partial

Same model; negation by witness (dict with an extra key); partial: symmetric when dictionaries have the same key sets.

* `C02_symmetric_violated`: C02 is violated by the code: an extra key in the second dictionary is not seen.
* `C02_eq_symmetric_violated`: C02 is violated by `==` too: two objects with `a == b` and `b != a`.
* `C02_both_directions_iff_same_partial`: C02, what holds: the two directions of `data_eq` together decide exactly "same data" (a symmetric notion) for values without class objects. Missing: one direction alone is not enough, see `C02_symmetric_violated`.
* `C02_symmetric_partial`: C02, what holds: `data_eq` is symmetric on values without dictionaries whose objects have the attributes set by their class. Missing: dictionaries (`C02_symmetric_violated`).

### C03 Equal objects have equal hashes and hashes ignore insertion order — proved

Hash model parametrised by the builtin hash of atoms; induction; permutation lemma for sorted first/last keys.

* `C03_eq_imp_hash`: C03. Objects that compare `==` have equal hashes.
* `C03_same_data_same_hash`: C03. Values holding the same data (exact floats) have equal hashes, whatever the insertion order of their dictionaries and attributes, and the list or tuple nature of their sequences.
* `C03_hash_insertion_order`: C03. The hash of a dictionary does not depend on the insertion order.
* `C03_hash_attribute_order`: C03. The hash of an object does not depend on the order in which its attributes were set.
* `C03_hash_list_tuple`: C03. A list and a tuple with the same elements have the same hash.

### C04 == on objects coincides with data equality — partial

Negation by witness (float tolerance); partial on values without floats whose dicts have the same keys.

* `C04_eq_iff_dataEq_violated`: C04 is violated by the code: two objects of the same class whose floats are within the tolerance are data-equal but not `==`, because the hash of a float is exact.
* `C04_same_data_eq_partial`: C04, what holds: objects holding the same data with equal floats are `==`. Missing: floats that are only close.

### C05 The diff of a value with itself is empty — proved

Induction on values.

* `C05_diff_self_empty`: C05. The diff of a value with itself is computed and empty.

### C06 An empty diff means equal data — proved

Mutual induction on pairs of values.

* `C06_empty_diff_imp_dataEq`: C06. An empty diff means equal data.

### C07 The diff of two dictionaries reports every missing key, on both sides — partial

Negation by witness; partial: exact list of missing entries as a function of lengths.

* `C07_missing_both_sides_violated`: C07 is violated by the code: with as many keys on both sides, the keys of the second dictionary that are absent from the first one are never reported.
* `C07_missing_longer_partial`: C07, what holds in all cases: only the longer dictionary is browsed (the first one when lengths are equal), its keys absent from the other one are reported exactly. Missing: the keys of the other dictionary.
* `C07_missing_exact_partial`: C07, what holds: the full statement, when the keys of one dictionary are all keys of the other. Missing: dictionaries with own keys on both sides (`C07_missing_both_sides_violated`).

### C08 A deep copy is data-equal to the original and keeps its structure — partial

Memo-passing copy model; invariant: every memo entry is data-equal to its key. Negation by witness for tuples.

* `C08_copy_kind_violated`: C08 is violated by the code: the deep copy of a tuple is a list.
* `C08_copy_data_violated`: C08 is violated by the code: an object that is `==` to one already copied (dictionaries are compared one way) is replaced by the copy of the latter, and the copy is not data-equal to the original.
* `C08_copy_exact_partial`: C08, what holds: when no two different objects inside the value are `==`, the deep copy is the value itself, tuples becoming lists. Missing: tuples stay tuples (`C08_copy_kind_violated`), colliding objects (`C08_copy_data_violated`).
* `C08_copy_dataEq_partial`: C08, what holds under the same hypotheses: the copy is data-equal to the original, both ways, and has the same hash. Missing: objects which hold dictionaries and compare equal one way only (`C08_copy_data_violated`).
* `C08_copy_dataEq_shared_partial`: C08, what holds without any hypothesis on equal sub-objects: the copy of a value without floats and dictionaries is data-equal to it, whatever the sharing. Missing: floats and dictionaries.
* `C08_copy_identity_partial`: C08, what holds: without tuples the copy is exactly the original. Missing: tuples, which become lists (`C08_copy_kind_violated`).

### C09 Reading back a path that has just been written returns the written value — partial

Path segments over value trees, get/set functions, induction on the path. Indices of sequences, from the start and from the end, in a theorem of their own.

* `C09_index`: C09: in a list or a tuple, the segment written with the digits of `k` leads to the element of index `k`, and the segment written `-j` leads to the `j`-th element from the end.
* `C09_out`: C09: an index out of the sequence, from the start or from the end, raises IndexError.
* `C09_root_violated`: Writing at the path `#` of a dictionary does not change what is read at this path: it adds a key `#`.
* `C09_pointer_violated`: Writing below a reference changes the dictionary holding the reference, reading goes through the reference.
* `C09_get_after_set_partial`: C09, for paths of at least one segment, pointers being not evaluated or absent: what is read at a path after an assignment at this path is the assigned value. Missing: the path of the root itself, and objects holding references with `evaluate_pointers` (the code does not satisfy the property in these cases).
* `C09_set_succeeds`: The assignment succeeds as soon as the path can be read and the last container is not a tuple.

### C10 Writing a path changes nothing elsewhere — partial

Same, induction on the common prefix.

* `C10_alias_violated`: Two different paths may designate the same element of a list.
* `C10_elsewhere_partial`: C10, for indices written in the usual way, pointers being not evaluated or absent: an assignment does not change what is read (value or exception) at a path that takes another branch. Missing: indices with a sign or leading zeros, and objects holding references with `evaluate_pointers`.

### C11 Pointer-free serialization only outputs JSON data and is idempotent — partial

serialize mirrored; predicate Json as specification; induction.

* `C11_files_violated`: C11 is violated by the code: a file is left as is in the output, which is not JSON data.
* `C11_json_partial`: C11, what holds: the output of `serialize` on a value without files is JSON data. Missing: files (`C11_files_violated`).
* `C11_json_or_files`: C11: in any case the output is made of JSON data and files.
* `C11_idempotent`: C11: serializing again changes nothing.

### C12 Serialize then deserialize returns an equal object — partial

Class table model (argument names), deserialize mirrored, induction.

* `C12_string_violated`: C12 is violated by the code: an object holding a string that happens to name something importable is read back with the imported thing instead of the string.
* `C12_dict_violated`: C12 is violated by the code: an object holding a dictionary with the key `object_class` cannot be read back.
* `C12_roundtrip_partial`: C12, what holds: an object whose data is `Readable` is serialized, and read back as an object of the same class with the same data, sequences becoming tuples or lists according to the annotations. Missing: strings naming importable things, dictionaries with reserved keys, builtin classes (`Readable` excludes them, see the …
* `C12_exact_partial`: C12: if moreover the sequences are of the annotated kinds, exactly the same object is read back. Missing: what `Readable` excludes (`C12_string_violated`, `C12_dict_violated`).

### C13 Pointer serialization loses nothing — partial

Serializer with a heap of dictionaries and lists, a memo of the serialized values (ids from a counter stand for uuid) and the final rewriting of the first occurrences; specification: reading the references back; invariant on memo, references and paths.

* `C13_failures_partial`: **C13.** `to_dict()` succeeds only if the pointer-free serialization succeeds, when equal objects have the same serialization. Missing: equal objects with different serializations (see the `_violated` theorems of C13).
* `C13_partial`: **C13.** If the pointer-free serialization of an object is the dictionary `e`, then `to_dict()` succeeds, and its result, each `{"$ref": "#/_references/id"}` being replaced with the value of `id` in its `_references`, reads as `e`; the references are also the serialization of parts of the object. Missing: the keys and …
* `C13_names_violated`: **C13** is violated by the code: of two objects which only differ by their name, the second one is replaced with a reference to the first one, and its name is lost.
* `C13_measures_violated`: **C13** is violated by the code: a duration equal, as a number, to a distance is replaced with a reference to the distance.
* `C13_intKeys_violated`: **C13** is violated by the code: an object shared by two dictionaries with integer keys is not replaced with a reference where it is; the reference is added with a string key.
* `C13_slash_violated`: **C13** is violated by the code: when a key of a dictionary has a slash, sharing the object it holds makes `to_dict` fail, although the pointer-free serialization does not.
* `C13_list_violated`: **C13** is violated by the code: a list, even a list of numbers, cannot be serialized with pointers by `serialize_with_pointers`, although `serialize` accepts it: whatever the list, the call fails.
* `C13_extra_violated`: **C13** is violated by the code: the dictionary which is the reference to an object of a standalone class may get an other key, when the object holds a shared object.

### C14 Pointers are resolved before their users — proved

Graph model of explore_tree_from_leaves; invariant on produced order.

* `C14_order`: C14: in the order of dereferencing, each element comes after everything it needs: the targets of its references, and the elements inside it on the way to a reference or to a target.
* `C14_renamed_available`: C14: an element replaced by an other one (`equals`) comes after it.
* `C14_cycle_rejected`: C14: cyclic pointers are rejected: no order is returned.
* `C14_acyclic_accepted`: C14: pointers are rejected only when the pointer graph has a cycle; otherwise an order is returned.

### C15 Analysing pointers terminates — partial

Fuelled while loop: termination characterised by the root of the reference; non-termination proved for references not rooted at '#'.

* `C15_loop_violated`: The analysis of a dictionary holding the reference `'x'`, not rooted at `#`, never ends.
* `C15_ends_partial`: C15, when all the references start at the root `#`: the analysis ends. Missing: other reference strings, for which the code loops for ever (`C15_loops`).
* `C15_ends_iff`: C15, exact condition on JSON data whose references are strings: the analysis ends if and only if every reference starts at the root `#`.

### C16 typematch is sound for values — partial

Type syntax, typematch mirrored, `HasType` relation as specification; induction. Negation for truncated tuples.

* `C16_partial`: If typematch says yes, every value of the first type is a value of the second, unless an optional type is compared to an other type or two tuple types of different shapes are compared. Missing for the full property: these two cases (`C16_optional_violated`, `C16_tuple_violated`).
* `C16_tuple_violated`: `Tuple[int, int]` matches `Tuple[int]`, although a pair of ints is not a value of the latter.
* `C16_variadic_violated`: `Tuple[int, ...]` matches `Tuple[float]`, although a pair of ints is not a value of the latter.
* `C16_optional_violated`: `Optional[List[int]]` matches `List[int]`, although None is not a value of the latter.

### C17 typematch is reflexive, accepts Any and is covariant — proved

Same model.

* `C17_refl`: A type matches itself.
* `C17_any`: Any type matches Any.
* `C17_list`: Lists match as their elements do.
* `C17_dict`: Dictionaries match as their keys and values do.
* `C17_tuple`: Tuples of one type match as this type does.
* `C17_class`: A class matches its superclasses, and an int matches a float.

### C18 BSON validation accepts exactly the storable values — proved

Mirrored; inductive predicate as specification; iff.

* `C18_exact`: **C18.** `is_bson_valid(v)` accepts exactly the values which are storable at every depth.
* `C18_mono`: **C18.** Allowing integer keys only accepts more.

### C19 Annotation strings round trip — partial

Printer/parser on character lists; induction on annotations. Negations for nested variadic tuples, Literal, Optional. Unions are compared as sets (SameAnn); C19_union says how the string of any union is read.

* `C19_partial`: The annotations of `Good` are serialized, and come back from their strings. Missing for the full property: see the theorems below.
* `C19_union`: **C19** The string of a union of annotations of `Good`, even if some are unions or are repeated, is read as their union: its annotations are, each once, those written, those of the unions within being counted in place; when there is one only, it is that annotation.
* `C19_nested_violated`: `Tuple[Tuple[int, ...], str]` is serialized, but its string cannot be deserialized.
* `C19_optional_violated`: `Optional[int]` comes back as `int`.
* `C19_iterator_violated`: `Iterator[int]` comes back as `List[int]`.
* `C19_view_violated`: The string of `CadViewType[pkg.Car]` raises a KeyError.
* `C19_literal_violated`: `Literal['a b']` comes back as `Literal['ab']`.
* `C19_none_violated`: `List[None]` comes back as `List[Type]`.

### C20 Typing arguments are split exactly at top level commas — proved

Bracket counter invariant.

* `C20_split`: Arguments joined by commas, with or without spaces, are found again.
* `C20_content`: On any string, the arguments joined by commas are the string without its spaces, save possibly a last comma.

### C21 Default arguments are attributed to the right parameters — partial

List indexing; compared with Python's own binding rule as specification.

* `C21_partial`: For every signature with a first parameter (self), split_default_args gives the other positional parameters without default, and associates to those with a default this default, in order and without the reserved names. Missing for the full property: the first parameter of functions without self (`C21_static_violated`), and …
* `C21_merge_partial`: With merge, they are given in one list, in order. Missing: static methods and arguments which are keyword-only (`C21_static_violated`, `C21_keyword_violated`).
* `C21_static_violated`: `def f(x=1, y=2)`, without self: the default of x is lost.
* `C21_keyword_violated`: `def f(self, x, *, y=2)`: y has a default, but no entry.

### C22 Stringifying dictionary keys keeps all the entries — partial

Mirrored; negation for colliding keys, partial otherwise.

* `C22_shape_partial`: **C22 (partial).** When the keys of each dictionary have distinct strings, `stringify_dict_keys` returns a value of the same shape where each entry is kept, under the string of its key. Missing: dictionaries with keys such as `1` and `"1"`, where the property is false (`C22_collision_violated`).
* `C22_collision_violated`: **C22 fails on colliding keys**: an entry is lost.
* `C22_idempotent`: **C22.** Stringifying twice is stringifying once.
* `C22_string_keys`: **C22.** Whatever the input, no tuple and no key other than a string is left (objects apart, which are returned as they are), and no dictionary has the same key twice.

### C23 Check levels filter and raise consistently — proved

Lists; filter laws.

* `C23_above_exact`: C23: `checks_above_level(l)` returns, in order, exactly the checks of level at least `l`.
* `C23_shrinks`: C23: raising the level only removes checks.
* `C23_distributes`: C23: selecting distributes over `+`.
* `C23_raises_iff`: C23: `raise_if_above_level` raises if and only if a check is of level at least the given one.
* `C23_unknown_level`: C23: an unknown level raises KeyError as soon as there is a check.
* `C23_truth`: C23: a check that a method of the library builds is false in a test if and only if it is at the level `error`, so warnings count as passed.

### C24 type_check honours the requested level — partial

Mirrored; negation for the unused level; partial.

* `C24_info_violated`: C24 is violated by the code: with level `info`, no check is reported for an integer.
* `C24_failed_iff`: C24: whatever the level, a failed check is reported if and only if the value is not of the expected type.
* `C24_info_partial`: C24, outside of `int`, `float` and `str`: with level `info` a passed check is reported for a value of the expected type. Missing: `int`, `float` and `str`, for which the level is not taken into account.
* `C24_quiet`: C24: below level `info` nothing is reported for a value of the expected type.

### C25 Filter lists select by the announced logic — partial

zip-based combination mirrored; negation for xor.

* `C25_and`: **C25, and.** With at least one filter, `FiltersList(filters, "and").apply(objects)` returns the objects which satisfy every filter, in the order of the list and with their repetitions.
* `C25_or`: **C25, or.** With "or", the objects which satisfy one filter at least.
* `C25_xor_is_or`: "xor" computes the same result as "or" on every list of filters and objects.
* `C25_xor_partial`: **C25, xor (partial).** When no object satisfies two filters, "xor" keeps the objects which satisfy exactly one. The full statement, without that hypothesis, is false: `C25_xor_violated`.
* `C25_xor_violated`: **C25 fails for xor**: an object which satisfies two filters is kept.
* `C25_empty_and_violated`: **C25 fails for "and" without filter**: every object satisfies every filter of the empty list, none is kept.
* `C25_unknown_logical`: An unknown logical operator is reported, whatever the objects, as soon as the filters can be evaluated.
* `C25_unknown_comparison`: An unknown comparison operator is reported as soon as there is an object to compare.
* `C25_unknown_error`: When the operator of the first filter is unknown, the exception is a KeyError.
* `C25_total`: Filters on readable numeric attributes with known operators never fail.

### C26 Filtering keeps order and multiplicity — proved

itertools.compress mirrored; sublist.

* `C26_sublist`: **C26.** What a filter list returns is a sublist of its input: nothing is invented, moved or repeated.
* `C26_idempotent`: **C26.** Filtering the result again with the same filters changes nothing.
* `C26_length`: **C26.** A boolean index has one entry per object.
* `C26_indexes`: **C26.** The index list names exactly the positions marked by the boolean index, once each and in order, and picking these positions gives what applying the boolean index gives.

### C27 A workflow run evaluates every needed block exactly once, after its inputs — proved

Workflow graph (blocks, ports, pipes), state machine of activation and evaluation; invariant by induction on the rounds: evaluated blocks are pairwise distinct and come after what feeds them.

* `C27_once`: Whatever the workflow, a run which ends has evaluated exactly the runtime blocks, each once.
* `C27_needed`: In a well formed workflow, a run which ends has evaluated exactly the blocks which lead to the output.
* `C27_order`: In a run, a block is evaluated after all the blocks which feed it.
* `C27_completes`: A run of a well formed workflow with a value for each of its inputs, and blocks which do not raise, succeeds.

### C28 The result of a workflow does not depend on scheduling — proved

Denotational value of a port as specification; every schedule refines it (confluence).

* `C28_values`: In every state reached, a pipe holds nothing or the value its source must hold, and the output likewise.
* `C28_agree`: Two states reached with the same inputs, in whatever way, do not hold different values.
* `C28_run`: If a run succeeds for one order of the sets of blocks, it does so for every order, with the same result and the same evaluated blocks; and any other way of evaluating all these blocks with the same inputs ends with this result.
* `C28_result`: A run gives `y`, whatever the order of the sets, exactly if the indices given are those of inputs, each input has a value, and `y` is what the pipes and blocks make the output hold from these values: no other thing decides on the result.

### C29 Running always terminates — proved

Measure: number of non evaluated blocks.

* `C29_ends`: Whatever the state, `continue_run` makes at most one turn more than there are blocks: allowing more turns changes nothing, and the bound is not what stops it.
* `C29_run`: The run itself never ends because of the bound.
* `C29_fuel`: The propagation of a value: if the recursion of the code ends at some depth, it ends within the depth allowed by the model, with the same result.
* `C29_acyclic`: Without cycle of pipes the propagation of a value ends.

### C30 A run never starts with a missing required input — proved

Error branch of run; completeness check.

* `C30_missing`: When an input receives no value and has no default value, the run raises: the check made before any evaluation of a block fails. (The error is raised by the check, or by what comes before it.)
* `C30_result`: A state is turned into a result only when all the runtime blocks were evaluated.

### C31 A locked input always keeps its default value — partial

input_values mirrored with lock flags.

* `C31_run`: In a run each input has its default value if it is locked, else the value of the user, else its default value.
* `C31_state_violated`: A state made from a workflow does not honour the locks: `start_run` runs a locked input with the value given.

### C32 Progress is a monotone fraction that reaches one exactly at completion — proved

Counting lemma.

* `C32_bounds`: Progress is between zero and one, whatever the state.
* `C32_complete`: Progress is one exactly when all the runtime blocks were evaluated.
* `C32_monotone`: No operation makes the progress go down.
* `C32_increases`: An evaluated runtime block makes it go up.

### C33 Each input is in exactly one step or spare — partial

Step-edition state machine; partition invariant by induction on operations; negations for the corrupting calls.

* `C33_init`: Without steps, or with steps whose inputs are distinct inputs of the workflow, a new workflow is sound.
* `C33_step`: One careful edition keeps the state sound, whether it raises or not.
* `C33_partial`: After any history of careful editions, some of which may have raised, each input of the workflow is exactly once in the steps or in the spare inputs. Missing for the full property: the editions which are not careful (see `C33_spare_violated`, `C34_violated` and `C34_inputs_violated`).
* `C33_spare_violated`: `remove_input_from_step` called on a spare input raises, but lists it a second time in the spare inputs.
* `C33_change`: `change_input_step` puts the input in the given step and moves no other.
* `C33_remove`: `remove_step` removes this step only, and its inputs become spare.
* `C33_reset`: After `reset_steps` there is no step, and all the inputs are spare.
* `C33_find`: The step of an input is found when there is one, and refused when there are several.

### C34 Reordering steps or step inputs only permutes them — partial

Permutation theorems; negation for negative indices.

* `C34_order`: `reorder_steps`, when it is accepted, gives the steps in the requested order.
* `C34_raises`: `reorder_steps` changes nothing when it raises.
* `C34_rejects`: `reorder_steps` raises as soon as an index is missing, repeated or out of range.
* `C34_steps_partial`: `reorder_steps` leaves exactly the same steps, if no index is negative. Missing for the full property: negative indices (see `C34_violated`).
* `C34_accepts`: Every permutation of the indices is accepted.
* `C34_violated`: With negative indices, `reorder_steps` accepts an order which lists a step twice and drops an other one, with its inputs.
* `C34_inputs`: `reorder_step_inputs`, when it is accepted, gives to the step the inputs of the requested indices, in the requested order; these are the same inputs as before.
* `C34_inputs_partial`: `reorder_step_inputs` only permutes the inputs of the step if no index is repeated. Missing for the full property: repeated indices (see `C34_inputs_violated`).
* `C34_inputs_raises`: `reorder_step_inputs` changes nothing when it raises.
* `C34_inputs_violated`: `reorder_step_inputs` accepts repeated indices, and the step then holds an input twice.

### C35 Variables are addressed consistently — partial

Index arithmetic on block/port lists.

* `C35_roundtrip`: Every variable of a well formed workflow has an address, and is found back from it.
* `C35_injective`: Distinct variables have distinct addresses.
* `C35_unknown`: What has no address is not a variable of the workflow.
* `C35_free_violated`: When a pipe goes from a free variable to an other, both get the same address.

### C36 A workflow survives serialization — partial

Store of variable objects; to_dict and dict_to_object mirrored on addresses; round trip as an isomorphism (`Replica`) by an injective renaming, which keeps what the workflow computes; negations for each thing lost.

* `C36_partial`: A workflow whose ports are those of the constructors of its blocks is read back from its dict, as new variables with the same names, annotations, labels, positions, default values and locks, the same blocks, pipes between the same ports, the same output, the same steps, the same texts. Missing: free variables which are locked …
* `C36_runs`: The workflow read back computes what the workflow computes: each variable must hold the value its counterpart must hold, for the same values of the inputs.
* `C36_locked_violated`: A locked free variable comes back unlocked.
* `C36_type_violated`: A free variable takes the annotation of the port it feeds.
* `C36_detached_violated`: A detached variable is lost.
* `C36_renamed_violated`: A renamed port takes back the name of its class.
* `C36_free_violated`: A pipe from a free variable to an other one comes back as a pipe from the first one to itself.
* `C36_step_violated`: The index of the displayed variable of a step without display setting is lost.
* `C36_raises_violated`: A workflow with a locked variable whose default value has been removed cannot be serialized.

### C37 A copied workflow is equal to, and independent of, the original — partial

Same store; `__deepcopy__` mirrored (blocks, pipes, steps, locks); the copy is a `Replica` made of new variables, computes the same and compares equal under conditions; negations for each thing lost.

* `C37_partial`: What the copy of a workflow is: the same blocks with new ports, pipes between the same ports, the same output, the same steps; the original is left as it was. The ports are those of the constructors of the blocks, with the default value and the lock of the inputs of the workflow which are locked; the free variables keep their …
* `C37_equal_partial`: The copy compares equal to the original, when only inputs of the workflow are locked and every step has the index of a displayed variable. (`s` still tells what the variables of the original hold, by `Replica.kept`.) Missing: other locks and steps (`C37_lock_violated`, `C104_step_violated`).
* `C37_runs`: The copy computes what the workflow computes, whatever the values of the inputs.
* `C37_default_violated`: The default value given by a user to an input which is not locked is lost: what runs without giving this input no longer runs on the copy.
* `C37_label_violated`: Labels are lost.
* `C37_texts_violated`: The description and the documentation are lost.
* `C37_detached_violated`: The detached variables are lost.
* `C37_shared_violated`: The workflow and its copy share the variable of the name of the result.
* `C37_group_violated`: The group inputs of a step which are inputs of a previous step are lost.
* `C37_free_violated`: A workflow with a pipe into a free variable cannot be copied.
* `C37_lock_violated`: The lock of a port which a pipe feeds is lost, and the copy then differs from the workflow.
* `C37_hash_violated`: A workflow which has a step without the index of a displayed variable, as steps are built by default, can be compared with nothing, not even itself: the hash of the step raises.

### C38 The default argument dictionary of run can be built — partial

Mirrored; negation with witness (always raises with a default).

* `C38_violated`: `method_dict('run')` raises a ValueError for every workflow with an input having a default value.
* `C38_partial`: It returns an empty dictionary when no input has a default value. Missing for the full property: the other workflows, for which it raises (`C38_violated`).

### C39 The package mix is a distribution — proved

Rational sums.

* `C39_mix`: The package mix is always computed: distinct packages with positive shares, of sum 1 as soon as a block of the workflow or of a nested workflow names a package, and empty otherwise. Exact arithmetic is assumed (the code uses floats).
* `C39_share`: Without nested workflow, the share of a package is the proportion of the blocks naming it, among those which name a package.

### C40 The runtime blocks are those leading to the output — proved

Specification: inductive relation `Leads` (feeds the output); the backward search of the code is shown to be its closure.

* `C40_runtime`: The runtime blocks are the blocks which lead to the output, each once.
* `C40_no_output`: Without output, asking for the runtime blocks raises.

### C41 Data-flow blocks compute what they announce — partial

One lemma per block; Sum is violated.

* `C41_sequence`: A Sequence block returns the list of its inputs in the order of the ports.
* `C41_concatenate`: A Concatenate block returns the concatenation of its inputs in the order of the ports, when they are lists.
* `C41_concatenate_raises`: It raises a ValueError when its inputs have the same class, which has no `extend`, and a TypeError when their classes differ or when there is no input.
* `C41_missing`: A Sequence block which is not given all its inputs raises a KeyError.
* `C41_flatten`: A Flatten block returns the concatenation of the elements of its input, whenever they can all be iterated.
* `C41_flatten_raises`: It raises a TypeError when its input or one of the elements of its input cannot be iterated.
* `C41_product`: A Product block returns the combinations of one element of each input, in the order of the ports: all of them, as many as the product of the lengths, once each if the elements of each input are distinct.
* `C41_unpacker`: An Unpacker block returns the elements at the given indices, in this order, or raises an IndexError if one is out of range.
* `C41_sum_violated`: A Sum block with an input always raises.
* `C41_sum_empty`: Without input it gives 0.
* `C41_substraction`: A Substraction block returns the difference of its two inputs, for all numbers; it raises otherwise.
* `C41_strings`: A ConcatenateStrings block returns its inputs, in the order of the ports, joined by its separator.
* `C41_strings_raises`: It raises a TypeError when one of its inputs is not a string.
* `C41_foreach`: A ForEach block evaluates its workflow on each element of the iterated input, the other inputs being the same, and returns the list of the outputs in the order of the elements; it fails as soon as one evaluation fails.
* `C41_workflow`: A WorkflowBlock runs its workflow with the values of its inputs under their indices.

### C42 Pipes are never wired to the wrong place — proved

List membership lemmas.

* `C42_incoming`: The incoming pipe found for a variable is a pipe which enters it; there is none only if no pipe enters it; and it is the only one when a single pipe enters each variable.
* `C42_outgoing`: The outgoing pipes of a variable are all the pipes which leave it, in order.
* `C42_block`: The pipes of a block: one entry by input, and all the pipes which leave its outputs.
* `C42_between`: The pipes between two blocks are those from an output of the first to an input of the second.
* `C42_inputs`: The inputs of a well formed workflow, each listed once: the inputs of blocks fed by no pipe, and the free variables.

### C43 Pareto points are exactly the non dominated ones — proved

Filter loop with mask; domination as specification.

* `C43_exact`: A point is kept exactly if no point dominates it and no point before it has the same costs.
* `C43_pareto`: No kept point is dominated, and every discarded point is dominated by, or equal to, a kept one.
* `C43_real`: The points are kept as said whatever the real costs.
* `C43_costs`: The costs are returned with one row per object whenever they are given either by rows or by columns; a ValueError is raised otherwise.

### C44 Pareto sheets partition the dataset — partial

Recursion on sheets; permutation.

* `C44_labels_partial`: If no sheet is empty and some objects are left, each object of the i-th sheet has the label i and the others have the number of sheets for label. Missing for the full property: the other cases (`C44_labels_violated`).
* `C44_labels_violated`: If all the objects are in the asked sheets, the labelling never ends: for instance one sheet of two objects none of which is better than the other.
* `C44_partition`: As many sheets as asked are returned; the sheets and the rest contain each object exactly once, in the order of the dataset within each of them.
* `C44_rank`: Ranks: no object of a sheet is dominated by an object of the same sheet, of a later one or of the rest; every object of a later sheet or of the rest is dominated by an object of the sheet, or has the same costs as one.

### C45 Selecting in a dataset returns the selected objects — partial

List model; negation for index lists with order/duplicates.

* `C45_slice`: A slice of a dataset which is not empty holds the objects at the positions `a`, `a + s`, `a + 2 s`, ... up to the bound, with their rows and labels.
* `C45_slice_raises`: A null step raises a ValueError.
* `C45_slice_simple`: `dataset[a:b]` for natural bounds: the objects from `a` to `b` excluded.
* `C45_slice_reverse`: `dataset[::-1]`: the objects in reverse order.
* `C45_booleans`: A list of as many booleans as objects selects those whose boolean is true, in order, with their rows and labels; a list of an other length raises a ValueError.
* `C45_filtering`: Filtering selects the objects whose boolean is true, in order, with their rows and labels.
* `C45_indexes`: A list of indices selects the objects standing at one of them, in the order of the dataset, each once, with their rows and labels; an index out of range raises an IndexError.
* `C45_indexes_partial`: An increasing list of indices selects the designated objects in the designated order. Missing for the full property: the other lists (`C45_order_violated`).
* `C45_order_violated`: A list of indices which is not increasing loses its order and its repetitions.
* `C45_empty_violated`: Whatever the key, selecting in an empty dataset returns an empty list: neither a dataset for a slice or a list nor an IndexError for an integer.
* `C45_nothing`: An empty list selects nothing: an empty dataset of the same kind, clustered or not.
* `C45_int`: An integer designates the object at its place, counted from the end if it is negative; an IndexError is raised out of range.

### C46 Sorting a dataset permutes it coherently — proved

argsort model; permutation and sortedness.

* `C46_sort`: Sorting a coherent dataset whose values can be read: the objects are permuted, so that their values are in increasing or decreasing order, the rows of the matrix follow them, and the dataset stays coherent.
* `C46_empty`: Sorting an empty dataset does nothing.
* `C46_unreadable`: Sorting by a name which the first object has not and which is no common attribute raises a ValueError.
* `C46_lacking`: Sorting by an attribute which the first object has and another has not raises an AttributeError.
* `C46_readable`: The values of a key can be read if it is an index among the common attributes, or a common attribute which the first object has only as a feature, or an attribute all objects have.

### C47 The common attributes of a dataset are common — partial

Intersection of features; negation for sums.

* `C47_common`: The common attributes of a fresh dataset which is not empty are exactly the features of all its objects, each once.
* `C47_init`: A fresh dataset is coherent.
* `C47_read`: Reading the common attributes keeps the dataset coherent.
* `C47_matrix`: The matrix of a coherent dataset can always be read, it holds the values of the common attributes of every object, and the dataset stays coherent.
* `C47_getitem`: A selection in a coherent dataset is coherent.
* `C47_sum_partial`: The sum of two coherent datasets is coherent if, when the attributes of the second are among those of the first, the attributes of the first are features of the objects of the second, and both have the same attributes in the same order when both matrices are cached. Missing for the full property: the other cases …
* `C47_sum_violated`: The sum of a dataset and of a dataset having less common attributes claims an attribute which is not a feature of all objects, and its matrix cannot be read.
* `C47_rows_violated`: The sum of two datasets whose matrices are cached and whose common attributes come in different orders mixes up the columns.

### C48 Clusters are split by label — partial

Model parametrised by the enumeration order of the label set; negation by witness.

* `C48_content`: There is one sublist per label, holding exactly the objects with this label, in order.
* `C48_labels_partial`: The sublists are paired with their labels if Python enumerates the set of labels like the set of clusters, the outliers being last. Missing for the full property: the other orders (`C48_labels_violated`).
* `C48_names_partial`: The sublists are named after their labels if, moreover, the clusters are enumerated in the order of their decimal notations, as 0, 1, ..., 9. Missing for the full property: the other orders (`C48_names_violated`).
* `C48_default`: **C48** Objects for which no labels are given make a single cluster, that of label 0, with all of them in their order.
* `C48_labels_violated`: With the labels -1 and 7, which CPython enumerates in this order, the outliers are given the label 7.
* `C48_names_violated`: With the labels 0 to 10, the third sublist, which holds the objects labeled 2, is named after the label 10.

### C49 Distances are metrics — partial

Rational/real arithmetic lemmas.

* `C49_manhattan`: The Manhattan distance is a metric on the vectors of any given length.
* `C49_length_violated`: On vectors of different lengths, which raise no error, the distance can be null between different vectors.
* `C49_inf`: The infinite norm is the greatest absolute value of the coordinates, a ValueError being raised if there are none.
* `C49_inf_norm`: The infinite norm is a norm on the vectors of any given positive length.
* `C49_euclidian`: The Euclidean distance is a metric on the vectors of any given length.

### C50 Covariance is a symmetric non-negative form — proved

Finite sums.

* `C50_mean`: The mean of the values, and a ZeroDivisionError if there are none.
* `C50_symm`: Covariance is symmetric, errors included.
* `C50_variance`: The covariance of a vector with itself is its variance, which is not negative, and null for constant vectors only.
* `C50_translation`: Covariance is not changed by translations.
* `C50_raises`: Vectors of different lengths raise a ValueError, empty vectors a ZeroDivisionError.
* `C50_bound`: The square of a covariance is bounded by the product of the variances.

### C51 Full factorial sampling enumerates the grid — partial

Cartesian product model of fullfact; counting.

* `C51_grid`: The full factorial sampling of attributes with different names gives one sample per choice of levels: the list of all choices, each once, is mapped to the samples.
* `C51_distinct`: Different choices give different samples if the bounds of the attributes having several levels are different.
* `C51_bounds`: With at least two levels, the first is the lower bound and the last is the upper bound; all are between the bounds.
* `C51_single_violated`: With a single level the upper bound is never reached.
* `C51_names_violated`: Two sampled attributes of the same name: the same sample is given several times, and not one per choice.
* `C51_empty`: Without any attribute, a TypeError is raised.

### C52 Normalising a parameter is invertible — proved

Field arithmetic.

* `C52_inverse`: Normalising and reverting are inverse of each other, for all distinct bounds.
* `C52_range`: The normalised value is in [0, 1] exactly for the values within the bounds.
* `C52_bounds`: The lower bound is normalised to 0 and the upper one to 1.
* `C52_raises`: Equal bounds: no value can be normalised.
* `C52_random`: A random value is within the bounds.
* `C52_bounded`: A bounded attribute behaves likewise.

### C53 Interpolation index inverts interpolation — partial

Rational lists; negation for decreasing lists.

* `C53_partial`: On a non decreasing list, the float index of every value between the first and the last elements gives the value back when interpolated. Excepted: a value equal to the first two elements, for which a ZeroDivisionError is raised (`C53_duplicate_violated`). Missing for the full property: decreasing lists …
* `C53_raises`: Out of the range of any list, monotone or not, a ValueError is raised.
* `C53_extrapolates`: With extrapolation, it is the index of the closest end.
* `C53_outside`: An index is interpolated if it is within the list, and refused with a ValueError otherwise.
* `C53_decreasing_violated`: On a decreasing list, the index gives the value mirrored in its segment.
* `C53_duplicate_violated`: A ZeroDivisionError is raised for a value equal to the first two elements.

### C54 Factorisations are exact and complete — proved

Number theory on Nat.

* `C54_pairs`: `number2factor` lists, once each, all the pairs of product `n`, for every positive integer.
* `C54_triples`: `number3factor` lists, once each, all the triples of product `n`.
* `C54_incomplete`: Without the complete enumeration, `number3factor` lists one triple of product `n` for each choice of three elements with their multiplicities: none is missing and no two have the same elements.
* `C54_other`: Zero has no factorisation and a negative number raises.

### C55 Merging breakdowns keeps the shallowest path of every object — partial

Association lists.

* `C55_merge`: The merged dictionary holds exactly the objects of both, each with one of its paths and no deeper one; on a tie the path of the first dictionary is kept.
* `C55_breakdown`: The breakdown of a value holds exactly the objects met going down from it, each once, with a path at which it stands and which is not deeper than any other one.
* `C55_numbers`: The number of sub-objects given for a class is the number of distinct objects of this class met going down from the object: it is the length of a list without duplicate of these objects; no class has number zero.
* `C55_empty_key_violated`: An object standing under an empty key of a dictionary given to `breakdown` is not listed.

### C56 Exported files get the announced extension — partial

String suffix lemmas; negation.

* `C56_extension`: A saved template ends by the extension.
* `C56_partial`: A file name without the extension gets a dot and the extension; one with the dot and the extension is left as it is. Missing for the full property: names ending by the extension without a dot (`C56_violated`).
* `C56_violated`: A name ending by the extension without a dot is left as it is.
* `C56_json`: A JSON save always ends by '.json', which is added exactly if missing.

### C57 Generated scripts import each name once — partial

List/dict model.

* `C57_grouped`: The imports are grouped by module: each module once, with exactly the needed names, once each.
* `C57_as_is_partial`: Each module imported as it is has a line 'import module', and one only, if no imported name is this one. Missing for the full property: a module with the name of an imported class, which may be skipped (`C57_as_is_violated`).
* `C57_as_is_violated`: A class and a module of the same name: the module is not imported.

### C58 Printed tables show each row once — partial

List slicing; negation.

* `C58_no_limit`: Without limit, the rows are shown once each, in order.
* `C58_fits_partial`: The rows are shown once each, in order, when they fill at most the half of the table, or exactly an even limit. Missing for the full property: between the half and the limit (`C58_duplicated_violated`).
* `C58_beyond_partial`: Beyond an even limit, the first and the last rows are shown once each, with the right number of hidden rows between them. Missing for the full property: odd limits (`C58_odd_violated`).
* `C58_duplicated_violated`: Between the half of an even limit and the limit, more lines than rows are shown: some rows are shown twice.
* `C58_odd_violated`: Beyond an odd limit, one more row is hidden than announced.
* `C58_one_violated`: A limit of one row: no row is shown at all.

### C59 Excel column checks detect duplicate and missing attributes — partial

List recursion; negation for missing attributes.

* `C59_duplicates`: The check returns None exactly if the titles are distinct, and else the first title seen twice.
* `C59_missing`: Reading a sheet which holds an object fails whenever a required attribute has no column, and succeeds otherwise.
* `C59_values`: Each object is given the value of its row under the title of each attribute.
* `C59_check_violated`: The check of missing attributes made when the sheet is opened does not see a missing attribute when an other title stands for it.

### C60 Display settings survive serialization and composition — proved

Record model.

* `C60_roundtrip`: A display setting is recovered from its dictionary, with all its data.
* `C60_missing`: A document without one of the entries which `to_dict` writes is not read: a KeyError is raised.
* `C60_equality`: Two settings are equal exactly if they have the same selector, type, method and flags; then they have the same hash.
* `C60_compose`: Composing with attributes, from the innermost to the outermost, gives the method called on the whole path, the outermost attribute first; the rest is unchanged.

### C61 Vectors and attributes correspond in optimization — proved

List model.

* `C61_bounded`: Every bounded attribute gets the component of the vector at its place.
* `C61_fixed`: Every fixed attribute gets its value, if no bound has its name.
* `C61_only`: No other attribute is given.
* `C61_vector`: Each component of a dimensionless vector is converted with its own bound, and this can be reverted.
* `C61_best`: The combined optimization returns the best of both results, with its cost.

### C62 Every attribute is in at most one schema step — proved

List model.

* `C62_step`: The step found is the only one holding the attribute; None is returned if there is none; a ValueError is raised if several steps hold it.

### C63 Pretty names are readable forms — proved

Character lists.

* `C63_words`: A name made of words separated by underscores becomes these words separated by spaces, the first letter of the words of two letters or more being in upper case.
* `C63_characters`: All the characters are kept up to case, the underscores being replaced by spaces: what the pretty name becomes when its case is ignored is what the name becomes. `fold` is any way of ignoring the case of a character.
* `C63_no_underscore`: No underscore is left.
* `C63_identity`: A name without underscore starting by an upper case letter (or by a character without case) is left as it is.

### C64 Data equality tells different classes apart — partial

Data equality of the value model against a class comparison; witnesses where classes are not compared.

* `C64_classes_distinguished_violated`: C64 is violated by the code: any two class objects are data-equal, for instance `int` and `str`.
* `C64_class_vs_value_partial`: C64, what holds: a class is never data-equal to a value that is not a class. Missing: two different classes (`C64_classes_distinguished_violated`).

### C65 Comparing an object with any value returns a boolean — partial

`__eq__` mirrored with its exceptions; witness of the raising comparison.

* `C65_eq_total_violated`: C65 is violated by the code: comparing an object to a list or a dictionary with `==` raises TypeError.
* `C65_eq_total_partial`: C65, what holds: comparing with any other value returns a boolean, `False` unless it is an object of the same class. Missing: lists and dictionaries (`C65_eq_total_violated`).

### C66 Data equality is transitive — partial

Structural induction on values; witness with float tolerance.

* `C66_transitive_violated`: C66 is violated by the code because of the float tolerance.
* `C66_transitive_partial`: C66, what holds: `data_eq` is transitive from float-free values. Missing: floats (`C66_transitive_violated`).

### C67 Equal data gives an empty diff — partial

Mutual induction on pairs of values; witnesses where float tolerance differs.

* `C67_dataEq_imp_empty_diff_violated`: C67 is violated by the code: `1` and `True` hold equal data both ways, but their diff reports different types.
* `C67_same_imp_empty_diff_partial`: C67, what holds: values with the same data have an empty diff if they hold neither boolean nor measure outside of objects. Missing: booleans against integers and measures against floats.
* `C67_objects_partial`: C67, what holds: two objects of one class with `data_eq` in the direction of the diff have an empty diff. Missing: values other than objects of one class (`C67_dataEq_imp_empty_diff_violated`).

### C68 A diff entry designates the two differing values in order — partial

Specification: path look-up in both values; induction on the diff.

* `C68_value_order_violated`: C68 is violated by the code: for two objects of the same class, the attribute `name` is removed from the first one only, so that the second one is browsed against the first one: values are swapped, and `name` is reported as missing in the first object though it has one.
* `C68_entries_located_partial`: C68, what holds for all values: the two values of each entry are those found at its path in the two objects, in one order or the other. Missing: the order.
* `C68_value_order_partial`: C68, what holds: the full statement for values made of base values, lists and tuples. Missing: dictionaries and objects (`C68_value_order_violated`).

### C69 A reported different value is a real difference — proved

Induction on the diff: each reported entry is a pair of non-equal values.

* `C69_different_is_real`: C69. The two values of a 'different values' entry are not data-equal.

### C70 The diff of any two values can be computed — partial

Error branches of the diff; witness of a raising comparison. The only errors come from two values of different classes, or files, at one path.

* `C70_diff_total_violated`: C70 is violated by the code: two different classes, or two files of one kind with different contents, make `diff` raise NotImplementedError.
* `C70_diff_total_partial`: C70, what holds: the diff of values without class objects and files is computed. Missing: these two kinds.
* `C70_raises`: The diff of two values raises no other error than NotImplementedError, and only if somewhere, at one and the same path of both, they hold two different classes or two different files of one kind.

### C71 A deep copy keeps the name of every object — partial

Memo-passing copy; invariant on names; witness: memo hit on an equal object of another name.

* `C71_copy_names_violated`: C71 is violated by the code: of two sub-objects that only differ by their name, the second one is replaced by the copy of the first one and loses its name.
* `C71_copy_names_partial`: C71, what holds: when no two different objects inside the value are `==`, every attribute of every object, names included, is kept (tuples becoming lists). Missing: equal objects with different names.

### C72 A shallow copy has the class and constructor data of the original — proved

Constructor-argument model of `__copy__`.

* `C72_shallow_copy`: C72. A shallow copy of an object whose attributes are its constructor arguments has the same class and attributes (as do its sub-objects, which are copied too).
* `C72_shallow_copy_missing`: C72, error branch: a constructor argument that is not an attribute makes the shallow copy fail with KeyError.

### C73 Serialization fails exactly on unsupported values — proved

Inductive predicate of supported values; iff with the success of serialization.

* `C73_serialize_ok_iff`: C73: `serialize` succeeds exactly on the values all of whose serialized parts are supported.

### C74 The BSON verdict of the platform check — proved

Check list model; the verdict is compared with BSON storability.

* `C74_platform_bson`: **C74.** The BSON step of `check_platform` (stringify the keys, then validate with string keys only) accepts every value that can be stored with integer keys, and, when no two keys collide, no other.
* `C74_hidden`: The second part needs its hypothesis: a value which cannot be stored is accepted once the colliding key hides it.

### C75 Values can flow between blocks through a free variable — partial

Workflow state machine; by induction on the steps of a run, pipes through any chain of free variables hold the value of the first one and blocks are evaluated after those that lead to them (Workflow/ThroughProps.lean); witness of a run that does not end.

* `C75_violated`: A free variable between two blocks hides the first from the second: all the inputs are given, no block raises, and the run fails, because the first block is not a runtime block.
* `C75_partial`: **C75** (part): in a workflow where pipes may go through free variables, any number of them, a run that ends has evaluated each of its blocks after all those from which pipes lead to it, and each pipe of such a chain holds the value of its first one. Missing for the full property: the run ends, which fails when the first block …

### C76 Changing an input of a state changes its result — partial

Two-state comparison in the state machine; the sets of invalidated blocks are compared with reachability.

* `C76_partial`: An other value given to an input before the blocks are evaluated: continuing gives the result of a run made with this value from the start. Missing: values given after blocks were evaluated (`C76_violated`).
* `C76_violated`: After a run, giving an other value to an input and continuing keeps the previous result: evaluated blocks are not evaluated again.

### C77 Evaluating blocks one by one ends — partial

Measure on non evaluated blocks; evaluation in any order.

* `C77_next`: A call returns a block which had all its inputs, the first such one in the order of the blocks, which is then evaluated; it returns nothing only when no block can be evaluated.
* `C77_ends_partial`: When all the blocks lead to the output, evaluating them one by one ends: among more calls than there are blocks, one returns nothing. Missing: blocks which do not lead to the output (`C77_violated`).
* `C77_violated`: A block which does not lead to the output is returned again and again once it has its inputs: here, whatever the number of calls, the block of the output is never evaluated and the progress stays at zero.

### C78 A step display has its inputs at hand — partial

Step state machine.

* `C78_display`: Once a display is added to a step, all the inputs needed to compute the displayed variable are in this step or in a step before it, and the display is recorded on this step.
* `C78_stays_violated`: Editing the steps afterwards may put an input of a display after it: the display is kept although its inputs are no more available at this step.
* `C78_removed`: A step whose display is removed has neither display nor inputs at hand, and nothing else changes.

### C79 The package mix counts every package a workflow calls — partial

Counting over blocks; witnesses of blocks that do not count.

* `C79_partial`: The packages of the mix are those named, at any depth, by the blocks that tell their package, each with a positive share. Missing: blocks that do not tell it (`C79_violated`).
* `C79_violated`: Class method and for-each blocks have no `package_mix`: a workflow using packages only through them has an empty package mix.

### C80 Every file given to an Archive block can be extracted by its name — partial

Archive as an association list of names; negation for equal names.

* `C80_archive`: An Archive block writes one entry per input, in the order of the ports, with the name and the content of the file.
* `C80_partial`: Each file can be read in the archive under its name, if the names are distinct. Missing for the full property: files with the same name (`C80_violated`).
* `C80_violated`: Two files of the same name: the first cannot be read any more.

### C81 Values of a periodic parameter compare modulo the period — partial

Rational arithmetic modulo a period.

* `C81_partial`: Values differing by a multiple of the period are equal, whatever the tolerance. Missing for the full property: values differing by a multiple of the period up to the tolerance, on both sides of a multiple of the period (`C81_violated`).
* `C81_symmetric`: The result does not depend on the order of the values.
* `C81_apart`: Values out of the tolerance are told apart, if the tolerance dominates the relative one.
* `C81_optimizer`: The bounds given to an optimizer: those of the parameter, with half a period around.
* `C81_violated`: Two angles of 0 and 359.999 degrees are the same modulo 360 up to 0.01, and are not found equal.

### C82 The parameters of a parameter set bound its values — proved

Fold of minima and maxima; induction.

* `C82_parameters`: The parameters of a set have its names in order; the bounds of each one are the smallest and the greatest of its values.
* `C82_defined`: They are computed as soon as each name has a value, and a ValueError is raised otherwise.
* `C82_means`: The mean of the values of a parameter is within its bounds.

### C83 Gradient polishing starts from the point found by CMA — partial

Record of calls; the argument given to the optimizer.

* `C83_partial`: The gradient search is started from the point found by the CMA if every bound is the interval [0, 1]. Missing for the full property: all other bounds (`C83_violated`, `C83_iff`).
* `C83_iff`: It is started from the point found by the CMA only if each component of this point is its own dimensioned value.
* `C83_violated`: A length between 10 and 20: the CMA finds the middle, 0.5, and the gradient search is started from 15, out of the bounds (0, 1) given to it.

### C84 A row of a markdown table takes one line — partial

Character lists.

* `C84_cells`: A cell shows its text if it fits, its beginning and three dots otherwise.
* `C84_partial`: A row takes one line with as many cells as values, if no value holds a newline nor a vertical bar. Missing for the full property: the other values (`C84_violated`).
* `C84_violated`: A value holding a newline breaks its row in two lines.

### C85 Equal display settings describe the same display — partial

Record model.

* `C85_violated`: Two settings of the same method with different arguments, hence with different displays, are equal.
* `C85_partial`: Equal settings with equal arguments are the same. Missing: equal settings with different arguments (`C85_violated`).

### C86 A display setting is found by its selector — proved

List search; uniqueness of selectors.

* `C86_selector`: Looking for a selector returns the first setting having it, and raises a ValueError if there is none.

### C87 Iterating a dataset ends and yields its objects — partial

Iterator with a position kept in the object; negation for nested iterations.

* `C87_partial`: Iterating over a dataset which is not empty gives its objects in order. Missing: the empty dataset (`C87_violated`).
* `C87_violated`: Iterating over an empty dataset never ends.

### C88 Sorting a clustered dataset keeps labels with objects — partial

Permutation coherence between labels and objects.

* `C88_partial`: Sorting leaves the labels where they are: objects keep their label when all labels are the same. Missing for the full property: the other labels (`C88_violated`).
* `C88_violated`: Sorting a clustered dataset gives the labels of the objects to others.

### C89 Entries of a covariance matrix are covariances — partial

Finite sums; matrix entries against their specification.

* `C89_partial`: The entries of the covariance matrix are the covariances of the rows times n / (n - 1). Missing for the full property: equality (`C89_violated`), and a matrix for a single row (`C89_single_violated`).
* `C89_violated`: The entries of the covariance matrix are not the covariances.
* `C89_single_violated`: For a single row, a number is returned instead of a matrix.

### C90 Random samples stay within their bounds — partial

Interval arithmetic on rationals, for every random source in [0, 1].

* `C90_within`: Latin hypercube and Monte-Carlo sampling give as many samples as asked, with the constants at their value and the sampled attributes between their bounds.
* `C90_doe`: Whatever the method, a design of experiments has all its samples with the constants at their value and the sampled attributes between their bounds: as many as choices of levels for the full factorial, which does not use the number of samples asked for, and as many as asked for by the two others (none for a negative number). …
* `C90_names_violated`: An attribute which is constant and sampled takes the sampled value: the constant is lost.

### C91 A parallel plot shows every common attribute once — partial

Greedy ordering of axes as a recursion; permutation theorem.

* `C91_axes`: The axes of a parallel plot are always computed; each is a common attribute and none is repeated.
* `C91_partial`: With two or three attributes which are not constant, every common attribute is an axis exactly once. Missing for the full property: the other cases (`C91_violated`).
* `C91_violated`: A dataset of one object with five attributes, hence all constant: two attributes have no axis.
* `C91_correlated_violated`: The same loss with five attributes none of which is constant.

### C92 Real centroids are the cluster elements nearest to the mean — partial

argmin over rationals; nearest element specification.

* `C92_partial`: If the labels, read as indices, designate every cluster, as 0, 1, ..., n - 1 or 0, 1, ..., n - 2, -1 do, the element nearest to the mean is returned for every cluster. Missing for the full property: the other labels (`C92_violated`).
* `C92_violated`: Labels which are not indices of clusters raise an IndexError.

### C93 Point families of a clustered dataset partition its objects — partial

Partition of indices by label.

* `C93_partial`: If the labels are -1, 0, ..., n_clusters - 1, every object is in exactly one point family. Missing for the full property: the other labels (`C93_violated`).
* `C93_violated`: With a label which is not one of the first natural numbers, objects are in no family.

### C94 Printing a dataset shows its first and last objects — partial

List slicing, prefix/suffix specification.

* `C94_partial`: A dataset of at most five objects is printed with all its objects, in order, under the titles. Missing for the full property: longer datasets (`C94_violated`).
* `C94_first`: A longer dataset is printed with its first five objects, then the number of objects which are not shown.
* `C94_violated`: The rows printed at the end for the last five objects are again those of the first five, whatever the dataset.
* `C94_last_violated`: So that the sixth object of a dataset of six objects is never shown.

### C95 Printed cells of a dataset are aligned with their titles — partial

Lengths of character lists.

* `C95_width`: The cell of a value has the width of its column.
* `C95_short`: A value short enough is shown in full, after spaces and before a space.
* `C95_long`: An other value is shown by its beginning followed by three dots.
* `C95_partial`: When `name` is not a common attribute, titles are printed; each is between spaces, and the cells of every object are aligned with the titles. `cap`, the capitalization, does not shorten strings. Missing for the full property: datasets with a common attribute `name` (`C95_titles_violated`).
* `C95_titles_violated`: With a common attribute `name` after an attribute of more than ten characters, nothing is printed: a local variable is read before it is set.

### C96 Rows of a sub-matrix hold the requested attributes — proved

Matrix model; column specification.

* `C96_rows`: The sub-matrix of a coherent dataset has a row per object, holding its values of the requested attributes in the requested order.
* `C96_empty`: Without any requested attribute, no row is returned, whatever the number of objects.

### C97 The Minkowski distance is a metric — partial

Minkowski inequality of Mathlib on real powers; negation for exponents below one.

* `C97_minkowski`: The Minkowski distance of an order greater than 1 is a metric on the vectors of any given length.
* `C97_orders`: The orders 1 and 2 give the Manhattan and the Euclidean distances.
* `C97_order_zero`: The order 0 counts the coordinates in which the vectors differ.
* `C97_length_violated`: Vectors of different lengths raise a ValueError, unless one has a single coordinate: it is compared to each coordinate of the other, and the distance can be null between vectors of different lengths.
* `C97_triangle_violated`: For the order 1/2, the triangle inequality fails.

### C98 Merging the sublists of a clustered dataset gives it back — partial

Concatenation and permutation of label/object lists.

* `C98_merge`: Merging labeled datasets gives each object with the label of its dataset.
* `C98_partial`: Splitting then merging gives back the objects with their labels, if the set of labels is enumerated as in `C48_labels_partial`. Missing for the full property: the other orders (`C98_violated`).
* `C98_violated`: With the labels -1 and 7, the object labeled 7 comes back as an outlier and conversely.

### C99 match_variables lists the compatible variables of matching types — partial

Matching of types against variables; quadratic enumeration.

* `C99_partial`: When typematch answers on the types of connectable variables, match_variables gives, for each typed variable, the connectable variables whose types match. Missing for the full property: types on which typematch raises (`C99_violated`).
* `C99_violated`: An optional output and an optional input of different classes make match_variables raise.

### C100 A type matches its optional form — partial

Type syntax; induction.

* `C100_partial`: A list, a dictionary or a tuple type matches its optional form. Missing for the full property: the other types (`C100_violated`, `C100_raises_violated`).
* `C100_violated`: No class matches its optional form.
* `C100_raises_violated`: Comparing an other generic type with its optional form raises.

### C101 The arguments found for a method do not depend on the methods inspected before — partial

Cache as state; negation when two methods share a cache key.

* `C101_partial`: After any history of inspections of methods none of which has the name of this one and other arguments, inspect_arguments gives the arguments of this method. Missing for the full property: methods of same name, `C101_violated`.
* `C101_violated`: Two methods of same full name, such as methods of local classes of one function: the second one is given the arguments of the first.

### C102 A schema shows the parameters with their defaults — partial

Schema of arguments as association list.

* `C102_partial`: The schema of a class, or of a method whose first parameter is self or cls, has as attributes the positional parameters that are not reserved, in order, each with its default. Missing for the full property: see `C102_static_violated`.
* `C102_static_violated`: `def f(x=1, y=2)`, without self: the schema shows x without its default.
* `C102_keyword_violated`: `def f(self, x, *, y=2)`: the schema has no attribute y.

### C103 Workflows that compare equal define the same computation — partial

Equality mirrored on the store of variables; equal workflows of the same sizes are matched by a bijection of variables which keeps pipes and blocks, hence what is computed; negations with the blocks of the library.

* `C103_steps`: Workflows which compare equal have the same labels and displays on the steps they both have, and, at the positions which both steps have, inputs and group inputs of the same names, annotations and locks.
* `C103_partial`: Workflows of as many blocks and pipes, with the output at the same place, which compare equal are the same up to the identity of their variables and the order of their pipes: their inputs correspond one to one, with the same names, annotations and locks, and a value computed by one for some values of its inputs is computed by …
* `C103_class_violated`: Two workflows which build instances of different classes compare equal, and do not compute the same value: `equivalent` compares the names of the metaclasses.
* `C103_locked_violated`: Two workflows whose inputs are locked to different values compare equal: `equivalent` compares that they are locked.
* `C103_blocks_violated`: Two workflows with different numbers of blocks and of inputs compare equal.

### C104 Comparing workflows always gives an answer — partial

Same model, error branches; reflexivity as a particular case of the comparison of a workflow with an isomorphic one.

* `C104_step_violated`: A workflow with a step as the constructor of steps makes it by default cannot be compared with itself.
* `C104_symmetric_violated`: `a == b` may raise an AttributeError although `b == a` is False.
* `C104_partial`: A workflow is equal to itself, when every step has the index of a displayed variable. Missing: steps without such an index (`C104_step_violated`).

### C105 An object saved with pointers is read back as an equal object — partial

The heap of C13 is shown to be finite JSON data (ranks of dictionaries and lists), which is a document standing for the object; then C106. Negation: tuples which hold a reference.

* `C105_partial`: **C105.** An object is saved with pointers, and any JSON writing of the dictionary is read back as an object of the same class with the same attributes, up to the order of the keys of dictionaries and to the kind of sequences. The two objects are equal. Missing: the data is `Readable` (as in C12) and the keys are plain strings …
* `C105_tuple_violated`: **C105** is violated by the code: a tuple which holds a shared object, given to an argument annotated as a tuple, is read back as a list. (Without pointers it is read back as a tuple.)
* `C105_slash_violated`: **C105** is violated by the code: an object with a dictionary which has a shared object under a key with a slash is saved, but cannot be read back. (Without pointers it can.)

### C106 A document with references is read as what it stands for — partial

Relation between JSON documents and values, references being replaced; induction on it for the graph of references (no cycle), for the order of deserialization and for what is deserialized in this order.

* `C106_partial`: **C106.** A JSON document whose references, once replaced, make it stand for an object, is read as this object (up to the order of the keys of dictionaries and to the kind of sequences), whatever the order of the entries of the document. In particular no cycle is found in its references, and each is read before it is used. …
* `C106_slash_violated`: **C106** is violated by the code: a document with a reference under a key of a dictionary which has a slash cannot be read, although it stands for an object.
* `C106_key_violated`: **C106** is violated by the code: a reference whose key has a slash cannot be read.

### C107 A run can be saved and continued later — partial

States written in dicts and read back on a renamed workflow; invariant of the runs in which values may be missing (agreement with the denotation of C26), kept by each operation and by saving and restoring; completeness when the values which are still needed are saved. Negations: pipes which are not memorized, inputs of files.

* `C107_values`: Whatever the times at which a run is saved and restored, the values on its pipes and its output are those which must be computed from the inputs of the first workflow, `ρ` giving the variables of the workflow which was read in their place.
* `C107_result`: A run which was saved and restored on the way, and in which all the blocks which lead to the output were evaluated, has the result of an uninterrupted run with the same inputs.
* `C107_restored`: A state which holds no value for the inputs of files, once saved, can be restored. The restored state has the values of the inputs, the output, the active variables and blocks and the evaluated blocks of the original; the values on its pipes are those of the original, and those which could be saved are there.
* `C107_workflow`: The workflow read from the dict of a workflow is the workflow with other variables, as the theorems above ask, provided that the same pipes are memorized: the constructor of the workflow and the look-up of secondary branches do it from the blocks and the pipes only.
* `C107_pipe`: A saved state which tells a value for a pipe that the workflow does not have is refused.
* `C107_partial`: Saving a run on the way and continuing what was restored gives the result, when the values which the blocks left to evaluate already received are saved and no input is a file. Missing: the values on pipes which are not memorized are lost (`C107_violated`), and so are files (`C107_file_violated`).
* `C107_violated`: Violation: the values on pipes which are not memorized are not saved. A run saved after its first block cannot be continued once restored (`KeyError`), where the original run continues to its end.
* `C107_file_violated`: Violation: the values of the inputs of files are not saved, and the constructor of the restored state gives the input its default value in their place. The run ends as if it had been made with the default value.

### C108 A completed run shows its displays and exports — partial

Run made of a completed execution: values of the pipes which are not memorized dropped, inputs activated again. Invariant of runs with missing values (agreement with the denotation of C26, values present for the inputs of the missing blocks) kept by displays and exports; progress of evaluate_branch by induction on the number of blocks left. Negations: display leading to the output, equal selectors, secondary blocks evaluated beforehand.

* `C108_leading_violated`: **C108** A display which leads to the output of the workflow cannot be shown on a run: WorkflowError.
* `C108_selector_violated`: **C108** Of two displays with the same selector, the first cannot be shown: WorkflowError.
* `C108_evaluated_violated`: **C108** When blocks out of the way to the output were evaluated before the run was made of the state, a display which would have been shown otherwise is a KeyError.
* `C108_display_partial`: **C108** The run made of an execution of the workflow exists; and, on this run, whatever displays and exports were asked before, the display of a block which is out of the way to the output is the first value which this block gives on the values that its inputs must hold, although the blocks of its branch were not executed and …
* `C108_export_partial`: **C108** The same for the exports. Missing: as for `C108_display_partial`.

### C109 The branch of a display holds exactly the blocks to evaluate — partial

Loop of _branch_blocks with its bound on turns; invariant on the branch and the level; the result compared with an inductive definition of the missing blocks. Each once: proved for trees, negation with a diamond.

* `C109_branch`: The branch of a block holds the blocks which must be evaluated for it, and no other; the pipes which are memorized are those by which blocks leading to the output feed it.
* `C109_no_output`: Without output, the branch of a block fed by an other one cannot be computed: such a workflow with a display or an export cannot be created.
* `C109_once_violated`: **C109** A missing block which gives values to two other missing blocks is evaluated twice for one display.

### C110 The upstream inputs of a variable determine its value — proved

Same loop with the other condition; compared with the transitive closure of the relation between blocks; then induction on the denotation of the variable.

* `C110_inputs`: The inputs found upstream of a variable are the inputs of the workflow, except the locked ones, from which a value flows to the block of the variable or to a block on which this one depends.
* `C110_enough`: What the inputs upstream of a variable are for: with the locked inputs, they determine the value of the variable.

### C111 Blocks have distinct selectors — partial

Generated selectors as strings; the index is the part after the last parenthesis. Negation for explicit selectors.

* `C111_generated`: **C111** Two blocks with no selector of their own have different selectors, whatever their names.
* `C111_explicit_violated`: **C111** Displays with selectors of their own may clash, with each other and with a generated one.

### C112 The reference path of a display leads to the displayed object — partial

Look-up in the values of the run, on the invariant of C108. Negations: input coming from a secondary block, input without pipe.

* `C112_run_partial`: **C112** On a run, whatever displays and exports were asked before, the reference path of a display designates the value which its displayed input must hold, when this value comes from an input of the workflow or from a block which leads to the output. Missing: a display whose input comes from an other block, before it is …
* `C112_kept`: **C112** The run keeps the value which the execution left on each pipe that the user asked to memorize, and on each pipe which enters the displayed input of a display.
* `C112_after_partial`: **C112** Once the display was shown, its reference path designates the value which its displayed input must hold, wherever it comes from. Missing: displays which were not shown, or whose input comes from no pipe (`C112_secondary_violated`, `C112_unwired_violated`).
* `C112_secondary_violated`: **C112** The reference path of a display of a run may designate nothing: KeyError, as long as the display was not shown, when its input comes from a block out of the way to the output.
* `C112_unwired_violated`: **C112** The display settings of a workflow are a ValueError when the displayed input of a display is an input of the workflow.

### C113 Saved arguments are read as the values they were — partial

Types/Arguments.lean models deserialize_argument by recursion on the annotation; induction on the relation between annotations and values, with the round trip of serialize (C12) for objects. Negations: measures, dictionaries of objects, classes, unions, variadic tuples.

* `C113_partial`: **C113** An argument of the supported kinds is read from its saved form: the value obtained holds the same data, and is the very argument when the objects it holds keep their sequences in the annotated kinds. Missing: the cases of the theorems below.
* `C113_measure_violated`: **C113** A measure given for a measure is read as a dictionary, and one given for a float is refused.
* `C113_unread_violated`: **C113** An object held by a dictionary, or given for an argument of type Any, is read as a dictionary.
* `C113_class_violated`: **C113** A builtin class is read as False.
* `C113_union_violated`: **C113** No number is accepted for a union of builtins, nor for an optional type whose None is written first.
* `C113_sequence`: **C113** A tuple of documents is read as the list of these documents, for an argument which is a list, an iterator or a tuple, and the argument has the class of its annotation in both cases.
* `C113_variadic_violated`: **C113** A tuple of any length is cut after its first element or refused.
* `C113_file`: **C113** A file is read as it is, alone or in a list of one file, as forms give it. Several files are refused.

### C114 What is read for an annotation matches the annotation — partial

Induction on the annotation for builtins, lists, tuples and optional types; objects have the class which the document names. Negations: None, objects, dictionaries, literals, measures and short tuples are not checked.

* `C114_partial`: **C114** What is read from JSON data for an annotation made of builtins, lists, tuples, optional types and Any is of this type, with None allowed anywhere, and tuples possibly cut short. Missing: see the theorems below.
* `C114_union_partial`: **C114** What is read for a union of several types is what one of them reads, when those with more ancestors all lack a key. Missing: unions of which one of the first types raises another error (`C114_union_violated`, `C114_union_measure_violated`).
* `C114_union_read`: **C114** A document which one of the types of a union reads, the others lacking a key at most, is read.
* `C114_union_violated`: **C114** A document of the class with less arguments is refused: a missing argument is a TypeError, not a KeyError, so that the other class is never tried.
* `C114_union_measure_violated`: **C114** A union whose type of most ancestors is a measure refuses all documents with a TypeError, the other types not being tried.
* `C114_unchecked_violated`: **C114** None, whatever the type, an object for a number, a tuple which is too short, and any value for a dictionary, a literal or a measure, are accepted.
* `C114_object_partial`: **C114** What is read from a dictionary for an argument which is an object is an object, with the attributes of its class: the class which the dictionary names, whatever the annotation, and that of the annotation if it names none. Missing: the class read may be another one than that of the annotation (`C114_class_violated`).
* `C114_class_violated`: **C114** An object of an other class than the expected one is accepted.

### C115 The arguments of a run are read from its document — proved

Workflow/Arguments.lean: induction on the loop over the inputs; then C27_completes for the run. The reading of one value is a parameter.

* `C115_values`: **C115** The arguments which are read: one value for each input which is not locked and has an entry, read for the type of this input; none for locked inputs nor for those without entry, which then have a default value. Other entries of the document are ignored.
* `C115_missing`: **C115** An input which is neither locked nor has a default value, and has no entry, is an error.
* `C115_key_error`: The first missing entry is a KeyError, if what precedes can be read.
* `C115_locked`: **C115** The entries of locked inputs have no effect on what is read.
* `C115_name`: **C115** The name of the result: the value of the input named after the result if it is read and is not None, and otherwise the string after the last input, if any.
* `C115_method`: **C115** Only `run` has arguments.
* `C115_run`: **C115** What is read is enough for a run: each input has a value, the one read or its default value, and the run succeeds if the blocks do.
* `C115_call`: **C115** A call saved and read back is the same call: if each value of `user` was written under the index of its input as a document which reads as this value, the run of what is read does what the run of `user` does.

### C116 The arguments of a method are read from its document — partial

Induction on the loop over the arguments, with C113 for a saved call. Negation: a document keyed by names, as method_dict gives it, is ignored.

* `C116_positions_partial`: **C116** If the reading succeeds, the argument of each position is the value read, for its annotation, from the entry of this position; the arguments without entry are left out, so that their default values apply; other entries are ignored. Missing: entries under the names of the arguments, which are ignored, and arguments …
* `C116_call_partial`: **C116** The arguments of a call, saved under their positions, are read as arguments which hold the same data, each under its name. Missing: as for `C116_positions_partial`.
* `C116_names_violated`: **C116** The entries named after the arguments, as `method_dict` writes them, are all ignored.
* `C116_annotation_violated`: **C116** An argument without annotation, when it is given, is a KeyError.

### C117 The form of a run shows each input once, as it is — partial

Workflow/Form models input_schema, input_annotations and method_schemas on the model of workflows and of the edition of steps; the form is compared with a list computed from the workflow alone; histories by induction on the edits.

* `C117_form`: **C117** The form of a run of a workflow whose inputs are each in one step or spare shows each step as it is, and, for each of the inputs, its index, its default value, whether it can be edited, its title and its type; there is exactly one entry for each input.
* `C117_history_partial`: **C117** After any history of editions of inputs and (careful) editions of steps which return, the form shows each input once, as it is. Missing: editions of steps which are not careful (those of C33), and those which raise.
* `C117_violated`: **C117** is violated after an edition which raises: asking to remove a spare input from its step raises, and the form then shows this input twice.

### C118 Later runs use the edited inputs — partial

The edits of inputs are functions on the workflow; the value of each input of a run is `expected` (Workflow/Spec); each edit is proved to change it for its input only. Locked inputs whose default is reset are a counterexample.

* `C118_runnable_partial`: **C118** After any history of editions which return, the workflow can be run as soon as its inputs without default value are given. Missing: the editions which raise (`C118_locked_violated`).
* `C118_lock`: **C118** An input which is locked has the value it was locked with in every run, whatever the user gives for it; the values of the other inputs are what they were.
* `C118_default`: **C118** A default value is the value of the input in the runs in which the user gives none, and in all runs if the input is locked; the values of the other inputs are what they were.
* `C118_reset`: **C118** An input whose default value is reset must be given in each run: a run without it raises.
* `C118_rename`: **C118** The label of an input is its title in the form; a label has no effect on the values.
* `C118_locked_violated`: **C118** Resetting the default value of a locked input raises, but the input is left locked without default value: then every run raises, and so does the edition of the label of any input.

### C119 The script of a workflow rebuilds it — partial

The script is a list of statements (trees, with names and literals as texts) and its execution a function on a state of names and variables; by induction on the nesting, the execution gives a workflow alike up to an injective renaming of variables (`SameW`), which keeps what it computes; negations for each thing lost.

* `C119_same_run`: The workflow which the script of a workflow builds (see C119) runs as the workflow: for the same values it raises the same error, or does not end either, or ends with the same output, inputs and values on pipes.
* `C119_partial`: C119. The script of a workflow, run in a new process, builds a workflow like it: the same blocks in the same order, workflows in blocks and blocks to repeat included, with ports which are alike (names, annotations, positions, default values, locks), pipes which join the counterparts, the same output, the same name; the …
* `C119_runs`: Workflows which are alike compute the same values, when blocks built from the same things do: inputs and outputs correspond, the values expected from the user are the same, and each variable must hold the value its counterpart must hold.
* `C119_documentation_violated`: The workflow gets the documentation of the workflow in its blocks.
* `C119_default_violated`: The default value given by the user to the input of a block is lost.
* `C119_lock_violated`: The script of a workflow with an input locked on a value given by the user raises a ValueError.
* `C119_free_violated`: The default value of a free variable is lost.
* `C119_steps_violated`: The steps and the description of the workflow are lost.
* `C119_quote_violated`: The name of a workflow with a quote in it makes a script which Python does not read.
* `C119_class_violated`: With two classes of the same name, the script builds a block of the other class.

### C120 A block survives serialization — partial

The classes of blocks are an inductive type of kinds with their arguments; constructor, dict writer and reader are functions over an abstract library (`Setting`); for every block whose variables were made by the constructor and then set, read after write is the identity, by cases on the kind. `Export` and the deprecated displays give counterexamples.

* `C120_read_write_partial`: C120, partial: a block built by its class, whose variables may have been labelled, given default values and locked, is read as it was written: same class, same arguments, same name, same position, same variables with their labels, default values and locks. Full statement: every block which can be written is read as it was. …
* `C120_export_violated`: C120, violated: an `Export` is read with a class method in the place of its method.
* `C120_display_violated`: C120, violated: the label, the default value and the lock of the input of a deprecated display are lost.

### C121 Equivalent blocks compute the same and hash the same — partial

`equivalent`, the equivalent hash and `evaluate` by cases on the kind; equivalence and the list `Told` of what it does not look at imply equal results, over every host of user functions; one counterexample for each item of `Told`, and one for the hash.

* `C121_equivalent_partial`: C121, partial: two blocks which are found equivalent, and agree on what `Told` lists, give the same outputs for the same inputs. Full statement: two equivalent blocks give the same outputs. Missing: the comparison does not look at the class of an `InstantiateModel`, at the module of the class of a `ClassMethod`, at the logical …
* `C121_class_violated`: C121, violated: blocks which instantiate two classes with the same arguments are found equivalent.
* `C121_module_violated`: C121, violated: blocks which call a class method of two classes of the same name, in two modules, are found equivalent.
* `C121_filter_violated`: C121, violated: filters which join their conditions with `and` and with `or` are found equivalent.
* `C121_export_violated`: C121, violated: exports by two methods, in a text and in a binary file, with two extensions, are found equivalent.
* `C121_selector_violated`: C121, violated: displays by two selectors are found equivalent.
* `C121_view_violated`: C121, violated: views with two names are found equivalent.
* `C121_hash_partial`: C121, partial: two blocks which are found equivalent have the same hash. Full statement: so do all equivalent blocks. Missing: blocks which instantiate two classes whose names have not the same length are found equivalent and have not the same hash (see the next theorem).
* `C121_hash_violated`: C121, violated: two blocks which are found equivalent have different hashes.

### C122 The declaration of a block in a script rebuilds it — partial

A declaration is a call (name, keyword arguments) and its execution looks names up in the imports; for every writable block the execution is the call of its constructor; one counterexample for each class or argument which is not written back.

* `C122_script_partial`: C122, partial: the declaration of a block in a script, run after imports which hold those of the block and no two classes of the same name, calls the constructor of the block with its arguments, its name and its position; so that it builds the block itself when its variables have not been set. Full statement: every declaration …
* `C122_filter_violated`: C122, violated: the list of the filters of a `Filter` is not closed.
* `C122_attribute_violated`: C122, violated: the script of a `SetModelAttribute` does not import what it names.
* `C122_position_violated`: C122, violated: the position of a `ConcatenateStrings` is not written.
* `C122_multiplot_violated`: C122, violated: the script of a `DeprecatedMultiPlot` names another class than the one it imports.
* `C122_display_violated`: C122, violated: the selector of a deprecated display, which is a text, has no class to write.
* `C122_scatter_violated`: C122, violated: a scatter view of one attribute is rebuilt with the letters of its name.
* `C122_parallel_violated`: C122, violated: a parallel view without attribute is rebuilt with one attribute whose name is empty.
* `C122_export_violated`: C122, violated: an `Export` which was read from its dict writes a script which does not import what it names.
* `C122_copy_violated`: C122, violated: a `ClassMethod` which was copied writes a script which does not import what it names.
* `C122_name_violated`: C122, violated: a class of the user with the name of a class of blocks is called in the place of this one.

### C123 A copied block computes the same — partial

Deep copy by cases on the kind, with the memo of equal filters; the copy computes as the original for every host; equivalence holds without locks, and fails with them. Also: one value for each output, the model of a method given back, and what an archive holds.

* `C123_copy_evaluates`: C123: the copy of a block is of the same class, has the same name and position and the variables which the constructor makes, and gives the same outputs for the same inputs.
* `C123_outputs`: C123: a block which is evaluated gives one value for each of its outputs, whatever the values of its inputs.
* `C123_model`: C123: the second output of a `ModelMethod` is the object on which the method was called, so that the calls can be chained.
* `C123_archive`: C123: the archive of an `Archive` block holds the values of all its inputs but the last, in order, and has the value of the last, which is the input `Filename`, as name.
* `C123_copy_equivalent_partial`: C123, partial: the copy of a block which has no locked input is equivalent to it. Full statement: the copy of every block is equivalent to it. Missing: the copy of a block does not keep the locks of its inputs, nor their default values and labels (see the next theorem).
* `C123_lock_violated`: C123, violated: the copy of a block with a locked input has no locked input, and is not equivalent to it.
* `C123_selector_violated`: C123, violated: the selector of the copy of a display is no view, but an attribute.
* `C123_filter_violated`: C123, violated: of two filters which differ by their names only, the copy of a block has one name.

### C124 An object exported to Excel is read back equal — partial

Writer and reader modelled on a workbook of cells with links, the breakdown with its order; read after write is the identity for tabular objects, by induction on the sheets from the last one; an independent class of flat objects is shown tabular; violations by evaluation.

* `C124_tabular_partial`: Part of C124: an object which fits in tables is read from its Excel file equal to what was written. The sheet of each class holds legible values only, or one object whose links lead to the first object or to all the objects of sheets which follow it, or several objects whose linked objects hold legible values only. Missing: …
* `C124_flat_partial`: Part of C124, for objects whose attributes are legible values, objects of legible values, and lists of objects of legible values, each attribute with objects of its own class: they are read as they were written. Missing: two attributes of a class, dictionaries, deeper objects, and values which are not legible (see the …
* `C124_same_class_violated`: Two attributes of one class are both read as the first one.
* `C124_lists_violated`: Two lists of one class are both read as the list of all the objects.
* `C124_dict_violated`: An object with a dictionary of objects is not read: a sheet is asked for by a pair.
* `C124_text_violated`: A text which is a literal is read as its value, an empty one as no value, and one which looks like a formula is lost.
* `C124_round_violated`: A number is read with six decimals.
* `C124_rows_violated`: Boxes in a list: the lists they hold are read as one object, whose name is that of its class.
* `C124_nested_violated`: Boxes in a list: the objects of the objects they hold are read as their paths.
* `C124_named_violated`: An attribute whose name contains that of a container is read as a list.

### C125 Every object below a root has one row in its Excel file, and links lead to it — proved

Invariants of the merge of breakdowns by mutual induction on values: classes and objects distinct, every object below the root listed, paths lead to equal objects; the place of an object found in the table of rows.

* `C125_sheets`: C125: each sheet but the main one has the name of a class for title, and lists, once each, the objects of this class below the root: every one of them is equal to one of the listed ones, which are different from each other. The titles are different too.
* `C125_links`: C125: the cell of an attribute which is an object is linked to the row of an equal object, in the sheet of its class, and shows a path.
* `C125_paths`: C125: the first column of a row holds a path which leads, from the root, to an object equal to that of the row.

### C126 A catalogue in Excel gives one object per row — partial

Sheets as rows of cells; induction on the columns for the arguments of a row and on the sheets for the dictionary of objects; duplicates by induction on the header, with the header where empty columns hide them as violation.

* `C126_rows`: C126: when a catalogue is read, each of its sheets gives one object for each of its rows, in their order: what the class of the sheet makes of the arguments which are under the names of the header. This is said of headers where no name occurs twice.
* `C126_duplicates_partial`: C126: a header with no empty column, in which a name occurs twice, is refused. Missing: headers with empty columns (`C126_duplicates_violated`).
* `C126_refused`: C126: a first sheet whose header, with no empty column, holds a name twice is a ValueError.
* `C126_duplicates_violated`: Two columns without name hide two columns of one name: the header is accepted, and the last column is taken.

### C127 A copied state of execution continues as the original — partial

Workflow/StateCopy.lean models `__deepcopy__` of states and runs on the workflow made by the model of `Workflow.__deepcopy__` (Persist.lean).  StateSim.lean proves, operation by operation, that executions of two workflows which differ by the identity of variables stay together; StateCopyLemmas.lean proves that the constructor, which activates the inputs again, changes nothing on a state which was reached; StateCopyProps.lean concludes for any sequence of operations.

* `C127_partial`: The copy of a state of execution, however far it was run, succeeds. It is the state it was copied from, on a workflow of other variables; the original workflow is kept. Any operations then give the same results and the same states, or the same error, on the copy and on the original. `m` tells which pipes are memorized, `hcp` …
* `C127_run_partial`: The same for the copy of a run, which is made of a state and where the values of the pipes which are not memorized were dropped. Missing: see `C127_default_violated` and `C127_shared_violated`.
* `C127_default_violated`: Violation: the default value which the user removed from an input comes back in the copy. The copy of a state which waits for this input does not wait for it: its block can be evaluated.
* `C127_shared_violated`: Violation: the values on the pipes of the copy are those of the original, not copies of them. The values are taken as references, and a copy of `x` as the new reference `x + 100`: the input is copied, the value of the pipe is not.

### C128 Equal states hold the same values — partial

`stateHash`, `dataEqState` and `eqState` model `_data_hash`, `_data_eq` and `==` with an arbitrary hash and equality on values; equality of the values of pipes, which the code does not compare, is proved from the determinism of execution (`Den.unique`).

* `C128_equal`: Two states which compare equal: the workflows are equal, the progress is the same, the outputs and the inputs are equal, files put aside, and the same blocks, ports and pipes are active.
* `C128_copy`: A copy compares equal to the state it was copied from, when the workflows have the same hash and are equal and `==` on values is reflexive.
* `C128_values`: Two states of execution of a workflow, or of two which differ by the identity of variables only, hold the same values on the same pipes if they compare equal, when no input is a file and `==` on values is equality. (Neither values nor pipes' values are compared by `==`: what a workflow computes is determined by its inputs.)
* `C128_file_violated`: Violation: states which only differ by a file are made to be equal, but are not unless this file is the first input: its hash is part of the hash of the state, multiplied by the number of the input.
* `C128_restored_violated`: Violation: a state which was saved and restored is not equal to the original, when a value on a pipe which is not memorized was dropped: everything which `_data_eq` compares is equal, but the number of the values is part of the hash.

### C129 The script of a run runs the workflow again with the same values — partial

Workflow/RunScript.lean models the lists of values, the search of the names of inputs in the script, the texts of values and the execution of the whole script up to `run`; RunScriptLemmas.lean shows that each value goes to the input it comes from, RunSim.lean that whole runs of workflows which differ by the identity of variables stay together (errors included), RunScriptProps.lean concludes; negations for locked inputs, names found in texts or nested workflows, and objects.  `C119_same_run` uses the same simulation for the script of a workflow.

* `C129_partial`: The script of a run, when the workflow can be written by a script (see C119), the script shows the inputs of blocks only where pipes end, and the text of each value stands for this value: it rebuilds the workflow and runs it; this run ends too, with the same output, the same values of the inputs and the same values on the …
* `C129_plain_partial`: The same for a workflow of simple blocks without locked inputs, where no text contains `.inputs[`. Missing: other blocks, locked inputs and such texts (`C129_nested_violated`, `C129_locked_violated`, `C129_text_violated`).
* `C129_all_values`: The script of a run is written only if the run has a value for each input of the workflow; otherwise KeyError is raised.
* `C129_object_text`: What is written for an object, for a list of objects, and for a file: its class, with a text to be replaced by the user.
* `C129_objects_violated`: Two objects of the same class are written with the same text: whatever this text stands for, one of them is not read back.
* `C129_locked_violated`: With a locked input, the value of the next input is the one of the locked input: the workflow adds its first input and a locked 5, and doubles its last input; the run with the values 1 and 2 gives 4, the script of this run gives 10.
* `C129_text_violated`: When the documentation mentions the first input of the first block, the script does not give its value.
* `C129_nested_violated`: When the second block is a workflow whose second block receives a pipe, the script does not give the value of the second block: it takes the name of the inner block for its own.

### C130 A class whose parameters cannot be asked for is reported invalid — partial

Schemas/Model.lean models the checks of each kind of property and the accumulation of the list of checks; Schemas/CheckProps.lean proves that the checks of one property pass exactly when its arguments are proper; negations: the whole list is always empty, so that is_valid is never False; it raises on some unions; the check of mutable defaults never fails; annotations within are not checked.

* `C130_property_partial`: The checks of a parameter itself find no error exactly when the arguments of its annotation are what they should be, whatever its default. Missing for the full property: annotations within are not checked, nor those in `Optional[...]`; and see `C130_valid_violated`, `C130_raises_violated` and `C130_default_violated`.
* `C130_valid_violated`: **C130** is violated: the list of checks of a schema is always empty and no class is ever reported invalid, even when the checks of its parameters fail and it has no form: `Dict[int, int]`, for instance.
* `C130_raises_violated`: **C130** is violated: whether a class is valid raises AttributeError when a parameter is a union of other types than classes of objects, `Union[int, str]` for instance, and ValueError on `Dict[str]`.
* `C130_default_violated`: **C130** is violated: a mutable default value of a list or of a dictionary is not reported by the check meant for it: the outcome is the same as without default.
* `C130_inner_violated`: **C130** is violated: annotations within others are not checked: a list of dictionaries from int, which has no form, passes.

### C131 The form of a class shows each parameter once — partial

Schemas/Model.lean models get_schema, to_dict of every property and ClassSchema; Schemas/FormProps.lean defines which annotations have a form and proves by induction that forms exist for these only and tell the name, title, documentation, annotation and default; Schemas/ClassProps.lean proves the converse and the statement for classes; negations for non-editable attributes, optional unions, lists of optional literals, and None as default class. Also: the names and titles of the items of sequences.

* `C131_partial`: The form of a class has one entry for each parameter of its constructor that is not reserved, in order, which tells its name, its annotation, its documentation, and its default value when it has one; these annotations are among those with a form. Missing for the full property: see `C131_editable_violated`, …
* `C131_annotated`: A class has a schema only if each parameter shown has an annotation, which is not a class without a form, a Subclass, or a generic type without arguments other than Tuple.
* `C131_form_partial`: A class has a form if the annotations of its parameters are among those with a form, and their defaults are proper to them. Missing: the other annotations (`C131_optional_union_violated`, `C131_optional_literal_violated`) and defaults (`C131_class_default_violated`).
* `C131_editable_violated`: **C131** is violated: the entry of an attribute which the class declares as non-editable tells that it can be edited.
* `C131_editable`: The editable attributes of a form are the parameters shown which the class does not declare as non-editable, in order.
* `C131_optional_union_violated`: **C131** is violated: an optional union, `Optional[Union[A, B]]`, which is `Union[A, B, None]`, has no form.
* `C131_optional_literal_violated`: **C131** is violated: a list of optional literals, or of optional tuples of any length, has no form, although literals and tuples have one.
* `C131_class_default_violated`: **C131** is violated: an argument `Optional[Type[A]]` whose default is None has no form.
* `C131_content_partial`: The form of a parameter asks for a value of its annotation: the form of a list or a tuple holds those of its elements, of a union the names of its classes, and so on. Missing for the full property: see `C131_partial`.
* `C131_reference_partial`: The form of a reference to a method, an attribute or a view of a class asks for a class and a name: the class is the one of the annotation by default, and there is none for `Type`; it is asked for with its own key and title, and can be edited if the reference can; for a view it tells the decorator. Missing for the full …
* `C131_widget_partial`: The form of an annotation asks for the widget of its kind. For lists, see `C131_content_partial`. Missing for the full property: see `C131_partial`.
* `C131_items`: The items of a sequence are told in its form with their own name and title, which end with their rank: one for a list, of rank 0, and one for each element of a tuple, in order; the value of a dictionary has rank 1.

### C132 The default dictionary of a class has the default of each parameter — partial

Schemas/DefaultProps.lean on default_value of every property: entries of the dictionary are those of the parameters, in order, and stand for the default or for no value; negations for undefined values, optional arguments, mutable defaults and measures.

* `C132_partial`: The default dictionary of a class has one entry for each parameter of its constructor that is not reserved, in order, and `object_class`; the entry stands for the default of the parameter, or for no value when it has none. Missing for the full property: entries for other annotations, see `C132_undefined_violated`, …
* `C132_declared_partial`: The default value of a schema has one entry for each of these parameters that declare a default, in order, and no other. Missing: see the `_violated` theorems of C132.
* `C132_references_partial`: Without default, a reference to a method, an attribute or a view of a class of objects is one without name on this class, and `Type[...]` of it is this class; for `Type` the reference is on no class. Missing for the full property: see `C132_partial`.
* `C132_typing_violated`: **C132** is violated: a reference to a method or an attribute of what is no class, such as a list of objects, has no default value, but a TypeError.
* `C132_undefined_violated`: **C132** is violated: without default, a file, an argument that takes any value, a literal or an optional argument is given the mark of undefined values, and not None.
* `C132_optional_violated`: **C132** is violated: the default object of an optional argument is in the dictionary itself, and not the dictionary that stands for it, as it is when the argument is not optional.
* `C132_mutable_violated`: **C132** is violated: the default of a list, of an iterator or of a dictionary is dropped, in the default values and in the form alike.
* `C132_measure_violated`: **C132** is violated for measures: the class of a default measure is lost, an int is refused although it is a proper value of a measure, and without default the class in the dictionary is not the name of any class of measures.

### C133 The descriptions of parameters are those of the docstring — partial

Schemas/Docstring.lean models parse_docstring on texts; Schemas/DocstringProps.lean writes a docstring from a description and parameters and proves that it is read back, trimmed; negations for parameters which are not annotated, blanks before the colon, texts with marks, and the exceptions of the check. Schemas of classes: what they show of a docstring, and what one name without annotation loses.

* `C133_class_partial`: C133, for classes: with a well written docstring whose parameters are annotated, the schema of the class is documented by the beginning of the docstring, and each of its attributes by the last text given for it, if any. Missing for the full property: see `C133_class_violated`.
* `C133_class_violated`: **C133** is violated for classes: one documented name without annotation, after others which are annotated, and the documentation of the class and of all of its attributes is lost.
* `C133_partial`: **C133** In a docstring made of a description, of `:param name: text` for some parameters, possibly with `:type`, and possibly of `:return:`, where the texts hold no mark and the names are those of annotated parameters whose annotations have a string, the description is the beginning and the description of each parameter is the …
* `C133_unknown_violated`: **C133** is violated: one documented name which is not that of an annotated parameter, and the descriptions of all the parameters are lost.
* `C133_blank_violated`: **C133** is violated: with a blank before the colon (`:param x : A size`), or with the type before the name (`:param int x: A size`), the descriptions are lost.
* `C133_mark_violated`: **C133** is violated: a description which mentions `:type ` is cut there.
* `C133_check_violated`: **C133** is violated: `_check_docstring`, which returns whether the docstring is proper, raises KeyError or ValueError on an improper one: there is no exception but these for a name which is not annotated, or for `:param` without colon.
* `C133_check_partial`: What `_check_docstring` accepts is a docstring that can be read: there is one, and it is parsed; nothing is refused but a class without docstring and a TypeError. Missing: improper docstrings are not refused but raise (`C133_check_violated`).

### C134 The layout of a workflow places each block after those on which it depends — partial

The edges, the placement in columns and the grouping by column are modelled; the answers of networkx are parameters with a contract (parts, longest path, longest path between two nodes). Invariants on the columns give the order and the contiguity. Violated: KeyError for some graphs without cycles.

* `C134_partial`: When a layout is returned, each block and each non-block variable is in exactly one column, no column is empty, and each pipe goes from a column to a later one of the same graph. Missing: the layout is not always returned, see `C134_violated`; it is if the conditions of `C134_returns` hold.
* `C134_returns`: A connected part is placed in columns if each of its nodes leads to the end of the longest path, or is listed after all the nodes which lead to it (except those of the longest path), of which there is at least one listed before it.
* `C134_source`: Nothing is returned for a part with a node to which no edge comes, and from which no path leads to the end of the longest path.
* `C134_violated`: Some workflows without cycles have no layout: KeyError is raised for two blocks which give to the same third one, when the first also begins a longer path of which the second is no part.

### C135 The displays of an object are those of its decorated methods — partial

Views/Model, DisplayProps: classes as lists of methods with decorators; the settings are shown equal to a list specified from the decorators, and the display of each setting to the result of its method; pictures, equal selectors, double decorators and the structure tree refute the full claim.

* `C135_settings`: **C135** (settings): a class written as usual has, in this order: a markdown of `to_markdown` if no method is decorated as a markdown, one display for each method decorated as a plot, then as a markdown, then as a CAD view, the functions before the class methods and by names, each one under the selector of the decorator or the …
* `C135_partial`: **C135** (result): asking the display of a decorated method, of a class written as usual in which no two displays have the same selector, shows the result of this method. Missing: the settings of classes not written as usual, and displays with the same selector.
* `C135_all`: **C135** (all): the list of the displays of an object holds one display for each setting, in order, each being what asking its selector gives; none is given if one of them raises.
* `C135_unknown`: **C135** (no selector): asking a selector that no display has is an error.
* `C135_picture_violated`: **C135** (pictures) is violated: no display calls a method decorated as a picture, whatever the class written as usual.
* `C135_tree_violated`: **C135** (tree) is violated: the display of the structure tree of every object is a traceback without data, unless an other display takes its selector.
* `C135_violated`: **C135** (result) is violated by displays with the same selector: the first one is displayed twice, and the second one never, whatever the second method returns.
* `C135_twice_violated`: **C135** (settings) is violated by a method with two decorators: a method decorated as a plot and as a CAD view has two displays, with the same selector and the type of the outer decorator.
* `C135_read_violated`: **C135** (settings) is violated by decorators which are not names: one such decorator on one method leaves the class without displays.

### C136 The exports of an object call its decorated methods — partial

Views/ExportProps: formats specified from the decorators; files and archives characterised by the first format of a selector; docx exports, selectors taken, equal extensions and the returned stream refute the full claim.

* `C136_formats`: **C136** (formats): a class written as usual has the formats json, xlsx and docx, then one for each decorated method, in the order of the decorators then of the methods, then zip, then those of CAD if it has some.
* `C136_save`: **C136** (files): an export under a selector writes, in one file, what the method of the first format with this selector writes, as a text or as bytes as this format tells, and returns its path: the one given, with the extension of the format.
* `C136_unknown`: **C136** (no selector): an export under a selector no format has is an error.
* `C136_partial`: **C136** (decorated methods): in a class written as usual, exporting under the selector of a decorated method, which no other decorated method nor any of json, xlsx and docx has, writes what this method writes. Missing: selectors used twice or taken by those, and methods that do not write what their decorator tells.
* `C136_zip`: **C136** (archives): the archive of an object holds, for each of its formats which is not an archive, in order, one entry named after its extension with what its method writes.
* `C136_read`: **C136** (reading archives): the content of a format whose extension no other format has is read in the archive under its name.
* `C136_taken_violated`: **C136** (decorated methods) is violated by selectors taken by all objects: exporting under "json" never writes what a method decorated with this selector writes, but what `save_to_stream` does.
* `C136_docx_violated`: **C136** (decorated methods) is violated by documents: a method decorated as a docx export which writes bytes, as such documents are, cannot be exported, and the object has no archive at all.
* `C136_stream_violated`: **C136** (archives as results) is violated: what `to_zip_stream` returns is never the archive, but a closed handle on its last entry.
* `C136_violated`: **C136** (archives) is violated by formats with the same extension: the archive of an object with a decorated sheet holds two entries of the same name, and reading it gives the sheet of the method only, not the one of the object.

### C137 The checks of the platform tell what fails — partial

Views/Platform, PlatformProps: the five checks over an object given by its operations; each is shown to tell its claim; views that raise and the level of information refute the full claim.

* `C137_partial`: **C137**: when the checks of the platform are computed, they are five, which tell in this order whether the object read again is the same, whether its copy is, whether its dictionary can be stored, and whether its displays and its schemas are computed and written. Missing: an object whose dictionary or copy raises has no …
* `C137_valid`: **C137** (valid): an object is valid, at the levels of warnings and errors, if and only if all those hold, whenever they are told.
* `C137_raises`: **C137** (raise): `_check_platform` raises if and only if something does not hold or the checks cannot be computed.
* `C137_computed`: **C137** (errors): the checks are computed if and only if the object is read again and copied without error; when it is not the same after reading, the difference is computed too.
* `C137_violated`: **C137** (displays) is violated: the check of displays passes for an object all of whose views raise.
* `C137_info_violated`: **C137** (valid) is violated at the level of information: no object is valid, the checks which pass being above this level.

### C138 The displays offered by a run show what their blocks give — partial

Workflow/Offers models the settings of the blocks and of runs, the look-up by selector and the displays of a run, over Display's `block_display`. Workflow/OffersProps: with C108 (the value of a display on a run) and C112's paths, each selector shows the first value of its block; by induction the whole list. Negations: one deprecated or unconnected display makes every display raise; a block named as the documentation; states.

* `C138_settings`: **C138** (settings): when each display has a view and a pipe to its displayed input, the run offers its documentation, then one display for each display block, in order, under its selector, with its type, which shows this block with the path of what it displays. The documentation is loaded by default exactly when no block is.
* `C138_partial`: **C138** (result): on a run, whatever displays and exports were asked before, asking a display by its selector shows the first value which the block gives on the values that its inputs must hold, with the type of the block and the path of what it displays; a block which gives nothing is shown as failed. Missing: a block which …
* `C138_documentation`: **C138** (documentation): the selector of the documentation always shows the markdown of the run, cleaned if it is not empty.
* `C138_all_partial`: **C138** (all): when each display of the workflow is out of the way to the output, has a selector of its own, gives a value and can be shown, the displays of the run are its documentation, then each display, in order, as expected, whatever was asked before. Missing: as for `C138_partial`; a display which cannot be serialized …
* `C138_violated`: **C138**, violated: as soon as one display of the workflow is a deprecated one, or displays an input which comes from no pipe, no display of the run can be shown, not even its documentation: the settings raise.
* `C138_documentation_violated`: **C138**, violated: the display of a block whose selector is that of the documentation cannot be asked: the documentation is shown.
* `C138_state_violated`: **C138**, violated: a state which is not a run shows nothing, although it has settings.

### C139 The exports offered by a run write what their blocks give — partial

Same model for the formats, the archive and the saved files of a run. The selectors are distinct by C111 and the last character; the archive by induction on the blocks with C108. Negations: the saved file is empty, two files of the same name, the look-up of a format always raises.

* `C139_formats`: **C139** (formats): a run offers the exports of every object, one for each export block under its own selector, with its extension and its kind of stream, and its script; of those of every object and the script, the JSON and the script are texts. No two of them have the same selector.
* `C139_partial`: **C139** (archive): on a run, whatever was asked before, when each export block which is not an archive is out of the way to the output and gives a file of its kind, the streams of the archive of the run are, in the order of the blocks, these files with their names and contents. Missing: an export block which leads to the …
* `C139_file_violated`: **C139**, violated: the file saved by the export of a block of a run, when the block gives a file, is made with the asked extension but nothing is written in it.
* `C139_lookup_violated`: **C139**, violated: the format of an export block is never found by its selector on a state.
* `C139_taken_violated`: **C139**, violated: two exports of the same file name and extension make an archive in which only the last one can be read by its name.

### C140 An object saved in a file is read back from it — partial

Values/File models save_to_file, from_json and the streams over a disk (a function from names to texts) and the JSON text (contract: json.dumps then json.loads gives the same document with string keys). With C105 (objects written with pointers are read back) and the name rule of C56, by induction on the document. Negations: file objects, integer keys, names without extension, streams.

* `C140_partial`: **C140.** An object saved in a file, under a name to which `.json` is added if it is missing, is read back from this file as an object of the same class with the same attributes, up to the order of the keys of dictionaries and to the kind of sequences. The two objects are equal, and the other files are unchanged. Missing: file …
* `C140_file_violated`: **C140** is violated by the code: an object which holds a file object is serialized, but it is never saved: whatever the files and the name, a TypeError is raised.
* `C140_keys_violated`: **C140** is violated by the code: an object which holds a dictionary with an integer key is read back with a string as the key, and is not equal to the object which was saved.
* `C140_name_violated`: **C140** is violated by the code: a file saved under a name without `.json` cannot be read under the name which was given, whatever the object.
* `C140_stream_violated`: **C140** is violated by the code: an object saved in a stream is never read back from this stream, even rewound: a text stream cannot be read by `from_json_stream`, and a binary stream cannot be written by `save_to_stream`.

### C141 A failed save keeps the former file — partial

Same model; the file is opened for writing before the object is written. Negation for every failing save; partial: other files.

* `C141_violated`: **C141** is violated by the code: when the saving of an object fails, the file is left unreadable, whatever it was before.
* `C141_partial`: **C141.** The saving of an object, even if it fails, changes no other file than the one of the given name, to which `.json` is added if it is missing. Missing: this file is lost when the saving fails (`C141_violated`).

### C142 The Word document of a text shows each of its lines — partial

Misc/Docx models the parsing of the markdown text (regular expressions by derivatives, proved sound for their language) and the items added to the document (contract of docx: add_heading refuses levels over 9). By induction on the lines. Negations: levels lost, lines with three dashes, more than nine #, empty cells, one table for each row.

* `C142_partial`: **C142.** The Word document of a markdown text begins with its headings, then has one item for each line of the text which is not blank and holds no group of three dashes, in order: its text as a heading, a table of one row whose cells are between the bars, or a paragraph. Missing: the levels of the headings inside the document …
* `C142_level_violated`: **C142** is violated by the code: whatever its level, a heading is written in the document as a title (level 0), when it has no other `#` than those at its beginning.
* `C142_dashes_violated`: **C142** is violated by the code: a line of text with three dashes is left out of the document.
* `C142_hashes_violated`: **C142** is violated by the code: a text with a heading which has more than nine `#` makes no document.
* `C142_cells_violated`: **C142** is violated by the code: the empty cell at the beginning of a row is left out.
* `C142_table_violated`: **C142** is violated by the code: the rows of a table are written as tables of one row.
* `C142_name`: Adding the extension: as `C56_json` for `.docx`.

### C143 A regular tree generator gives each valid solution once — proved

Misc/Generation models the generators over dectree (contract: preorder walk). An independent specification walks the tree depth first; the loop is proved equal to it by induction on the tree, and the vectors are exactly the valid ones, each once, in lexicographic order.

* `C143_regular`: **C143.** A regular tree generator ends, and yields the model of each solution exactly once, in the order of their vectors: one choice for each level, such that all the beginnings of the vector, and their models, are valid.

### C144 A decision tree generator gives each valid solution once — proved

Same model with choices depending on the model. By well-founded induction on the finite tree; soundness for any number of rounds by an invariant, also for infinite trees.

* `C144_decision`: **C144.** If no sequence of valid choices goes on for ever, a decision tree generator ends, and yields the model of each solution exactly once, in the order of their vectors.
* `C144_sound`: **C144**, even if the generation does not end: whatever the number of rounds, only models of solutions are yielded.
* `C144_initial`: **C144**, even if the generation does not end: what is yielded in any number of rounds is the models of the first solutions, in order and each once: no solution before one of these is left out.

### C145 A generator can be used again — partial

Same model. Negation: the finished tree is kept. Partial: a generation interrupted at its first solution.

* `C145_violated`: **C145** is violated by the code: once a regular tree generator has given its solutions, it gives none when asked to generate again, because it keeps the finished tree.
* `C145_decision_violated`: **C145** is violated by the code: the same with a decision tree generator.
* `C145_partial`: **C145.** A regular tree generator from which the first solution has been taken, and which is asked to generate again, gives the same solutions as it would have given, this one included. Missing: a generation which has been used to its end gives nothing more (`C145_violated`, `C145_decision_violated`).

### C146 The data shown for a graph tells its nodes and edges — partial

Misc/Visjs models networkx_to_visjs_data branch by branch. By induction on nodes and edges, with the ids as positions. Negations: label without name, long labels, nodes which are objects.

* `C146_partial`: **C146.** The data shown for a graph has one item for each node, in order, with distinct ids, which tells the node, and one item for each edge, in order, between the ids of its ends, with an arrow if the graph is directed. Missing: nodes with a label and no name (`C146_label_violated`), long labels of nodes without a name, …
* `C146_label_violated`: **C146** is violated by the code: a graph with a node which has a label and no name cannot be shown.
* `C146_long_violated`: **C146** is violated by the code: two nodes named by long texts have the same label.
* `C146_other_violated`: **C146** is violated by the code: nodes which are objects are shown with no text.

### C147 is_serializable tells which values can be written — partial

Values/IsSer models is_serializable over serialize (C73) and is_jsonable. By mutual induction on the value in both directions. Negations: errors raised, measures and classes.

* `C147_partial`: **C147.** A value which `is_serializable` accepts can be written as JSON data, and a value without bare classes or measures which can be written is accepted. Missing: it raises instead of answering for some objects (`C147_raises_violated`), and refuses measures and classes which can be written (`C147_measure_violated`, …
* `C147_raises_violated`: **C147** is violated by the code: for an object which has an attribute that cannot be serialized, no answer is given: the error of the serialization is raised.
* `C147_measure_violated`: **C147** is violated by the code: a measure can be written, but is said not to be serializable.
* `C147_class_violated`: **C147** is violated by the code: a class can be written by its name, but is said not to be serializable.

### C148 The statistics of a dataset are those of its attributes — partial

Data/Stats models the statistics over the matrix of C47. The columns are the values of the common attributes (by induction on the objects), then C50 and C89. Negations: variances() is not the diagonal of covariance_matrix(); a number is returned for a single attribute.

* `C148_mean`: The means of a dataset which is not empty are those of the values of its common attributes, in order; each lies between the smallest and the largest value.
* `C148_variances`: The variances of a dataset which is not empty are those of the values of its common attributes, in order: they are their covariances with themselves, they are not negative, and vanish only for an attribute having the same value everywhere.
* `C148_covariance_partial`: With at least two objects and two common attributes, the covariance matrix has one entry for each pair of common attributes: the covariance of their values, times n / (n - 1). Missing: this factor, by which its diagonal is not `variances()` (`C148_variances_violated`), and a single common attribute (`C148_single_violated`).
* `C148_variances_violated`: **C148** is violated by the code: `variances()` is not the diagonal of `covariance_matrix()`.
* `C148_single_violated`: **C148** is violated by the code: with a single common attribute, the covariance matrix is a number.

### C149 The means and distances of clusters are those of their objects — partial

Data/Stats models mean_clusters and cluster_distances over the sublists of C48. By induction on the labels; the weighted mean by partition of the sum. Negations: outliers counted, no objects.

* `C149_partial`: **C149.** `mean_clusters` gives one list of means for each label, in the order in which Python enumerates them: the means of the attributes which the objects with this label have, over these objects. Missing: one list is given for the outliers, which are not a cluster (`C149_outliers_violated`); nothing is given without objects …
* `C149_outliers_violated`: **C149** is violated by the code: with outliers, there is one more list of means than clusters.
* `C149_empty_violated`: **C149** is violated by the code: a dataset without objects, which has no cluster, raises an error.
* `C149_distances`: The distances are those of all the objects of each cluster, in order, to the mean of the cluster.
* `C149_weighted`: For objects of a class, the mean of the dataset is the mean of the means of its clusters, each counted as often as it has objects.

### C150 The displays offered at a step need no input of a later step — partial

Workflow/StepDisplay models displayable_display_settings over the step editor of C78 and the workflow of C40. Offers characterised by upstream dependency, by induction on the steps counted from the end; determination by C110. Negation: spare inputs.

* `C150_settings`: **C150** At each step, the displays offered are those of the outputs of blocks which do not need an input of a later step: all of them, by index of variable, each once. The labels are those of the outputs which have displays, as soon as there is a step.
* `C150_partial`: **C150** Whenever a display is offered at a step, and no spare input is needed for it, the inputs of this step and of the steps before it determine the output to display, with the locked inputs. Missing: the displays of outputs which need an input placed in no step (`C150_spare_violated`).
* `C150_spare_violated`: **C150** A display is offered although it needs an input which the user was asked for at no step: the value to display is not determined by what the steps gave.

### C151 The display of a step shows the value which the inputs given so far determine — partial

Workflow/StepDisplay models compute_step_display with the branch evaluation of C40. Soundness invariant of the branch loop and a progress measure for totality, against the dataflow semantics Den; the step claim with C78 and C110. Negation: displays on inputs of blocks.

* `C151_partial`: **C151** The display of a step on an output shows the value which the values given by the user, and the default values of the other inputs, determine for this output; it raises when they determine none, or when the object cannot be shown. Missing: a display on an input of a block, which `add_step_display` accepts …
* `C151_none`: **C151** A step without display has nothing to show.
* `C151_steps`: **C151** Once a display is added to a step, on an output, the values given at this step and at the steps before it are all that counts for it: two users who agree on them are shown the same.
* `C151_input_violated`: **C151** A display can be added on an input of a block, but computing it is a ValueError.

### C152 The progress told to the callback of a run never exceeds one nor goes back, and ends at one — partial

Workflow/Callback.lean models run, continue_run, block_evaluation and _evaluate_block with the values told to the callback recorded beside the state. Proved: the exact sequence told by every completed run and that its last value is one; refuted: every completed run of a workflow with blocks also tells a value above one and then goes back, because the progress is multiplied and updated at two levels.

* `C152_partial`: **C152** The callback of a run is told, after each block, the fraction of the blocks evaluated, and in between what the method of the block tells, counted from the fraction reached: the values told are exactly these, in the order in which the blocks are evaluated. Missing: once a block is evaluated, a value which is too high is …
* `C152_last`: **C152** The last value told in a run which ends is one.
* `C152_violated`: **C152** In every run which ends, whatever the workflow, the callback is told more than one, and then less than before.
* `C152_bounds`: **C152** When the methods tell fractions, all the values told are between zero and `1 + 1 / N`, where `N` is the number of blocks; those which the methods tell are at most one.

### C153 A completed run can be run again — partial

Same model, with run_again. Proved: with a callback that does not raise, run_again gives the outcome of run on the same values; refuted: with its default callback (None) it raises a TypeError for every workflow that can be run. Workflow/AgainProps.lean: the values a run holds give the same run; no method of a run is read from a document.

* `C153_same`: **C153** A completed run, run again with the values it holds and a callback which does not raise, ends as it did: whatever values the user had given, the same values, blocks evaluated and output.
* `C153_document_violated`: **C153** A completed run is not run again from a document: whatever the workflow, the document and the method, `run_again` included, reading the arguments raises `NotImplementedError`, even for a document of which the workflow reads the arguments.
* `C153_partial`: **C153** A completed run is run again, with a callback which does not raise, as its workflow is run: with the same results and the same errors. Missing: without callback it raises (`C153_violated`).
* `C153_violated`: **C153** Without callback, as is the default, running again raises a TypeError, whenever the workflow can be run.

### C154 A block that calls a function has one input for each of its parameters — partial

Workflow/Calls.lean models _method_inputs on the signatures of Types/ArgsProps.lean. Proved by induction on the parameters: the inputs are the positional parameters other than self, cls and progress_callback, in order, with type and default, and an untyped one prevents the block; refuted: keyword-only parameters never get an input.

* `C154_partial`: For every signature all of whose positional parameters other than self, cls and progress_callback are typed, the block has one input for each of them, in their order, with its name, its default if there is one, and its type. Missing for the full property: keyword-only parameters (`C154_violated`).
* `C154_untyped`: If one of them has no type, no block is made.
* `C154_violated`: Keyword-only parameters have no input, whatever the signature: the inputs are those of the positional parameters.

### C155 A block that calls a function calls it once, with the values of its inputs — partial

Same model, with Python's rule for calls with keywords and bodies acting on a program state. Proved: exactly one run of the body with the right arguments, for each kind of block; refuted: a method taking progress_callback whose body raises a TypeError is run twice, and keyword-only or callback parameters without default, or renamed inputs, make every call a TypeError.

* `C155_class_partial`: A class method or static method block, all of whose inputs have values, runs the method once: each parameter receives the value of the input of its name, the others their default; and the block gives what the method returns, or raises what it raises. Missing for the full property: parameters without default that have no input, …
* `C155_instantiate_partial`: The same for a block that instantiates a class. Missing: see the `_violated` theorems of C155.
* `C155_method_partial`: A block that calls a method of its model without parameter progress_callback runs it once, as above, and gives its result and the model. Missing: methods with such a parameter (`C155_twice_violated`, `C155_callback_violated`).
* `C155_callback_partial`: A block that calls a method of its model which has a parameter progress_callback (even without default), runs it once, the callback being given to this parameter, unless the body raises a TypeError. Missing: `C155_twice_violated`.
* `C155_twice_violated`: Whenever the body of a method with an optional progress_callback raises a TypeError, it is run a second time, from the state its first run left, and the block gives what this second run gives.
* `C155_keyword_violated`: No class, class method or method with a keyword-only parameter without default can be called by a block, whatever the values of its inputs: a TypeError, unless this parameter is the progress_callback of a method.
* `C155_callback_violated`: Nor can a class or a class method with a progress_callback without default.
* `C155_renamed_violated`: Nor can anything without `**kwargs` once an input was given a name which is not the one of a parameter: the name of an input is not only a label.
* `C155_display_partial`: A display block runs the display method once, with the arguments of the display when it takes all of them, and with its defaults when it does not, unless its body raises a TypeError. Missing: methods whose body raises a TypeError, which run twice (`C155_twice_violated`).

### C156 No object lies below a Pareto frontier — partial

Data/Frontier: `_pareto_frontier_2d` and `pareto_frontiers` on rational cost matrices, the segments between the Pareto points of a pair of costs. Proved by the exactness of the Pareto selection (C43) and convexity of the segments; one object best for both costs raises (violation).

* `C156_partial`: For costs of any number of dimensions, in no pair of which one object is the best one for both, there is one frontier for each pair of different dimensions; it goes from the least to the greatest cost in the first one, and no Pareto point is below it. Missing for the full property: dominated objects (all objects, for two costs, …
* `C156_two_partial`: With two costs, when no object is the best one for both, there are two frontiers and no object at all is below one of them. Missing: an object which is the best one for both costs, and other numbers of costs (`C156_single_violated`, `C156_best_violated`, `C156_dominated_violated`).
* `C156_single_violated`: Whenever one object is at least as good as all the others in every cost, no frontier is given: a ValueError is raised.
* `C156_best_violated`: With three costs, an object may be below a frontier, even a Pareto point: here the object of costs 0 and 0 is the best one for the two first costs, and the frontier goes from (0, 0) to (2, 10); the second object, which nothing dominates, has costs 2 and 1.
* `C156_dominated_violated`: With three costs, a dominated object may be below a frontier although no object is the best one for its two costs: the last one, of costs 10 and 1, is below the frontier from (0, -1) to (10, 9).

### C157 A file read from the disk or a stream, or copied, holds the same content under the same name and kind — partial

Files/Streams: streams as content and position, text decoding with universal newlines as a contract on the codec. Proved by case analysis on the read position; the violations (kind of from_stream, position, newline translation) have witnesses. Also: when reading a file raises.

* `C157_copy`: A copy of a file has its class, its name and its content, is at its beginning, and is equal to it.
* `C157_binary`: A binary file read from the disk has the class asked for, the path as name, the bytes of the file, and is at its beginning.
* `C157_text_partial`: A text file read from the disk has the class asked for, the path as name, and the text of the file when this text has no carriage return; otherwise it has another text. Missing: texts with carriage returns (`C157_text_violated`).
* `C157_missing`: A file is read from the disk exactly when there is one at the path which, for a text, is encoded as texts are; a file which is not there raises an OSError, one which cannot be decoded a ValueError, and no object is made.
* `C157_text_violated`: A text with Windows ends of lines is changed when it is read.
* `C157_stream_partial`: A text received in a stream which is at its beginning is read as it is. Missing: streams which are not at their beginning (`C157_position_violated`).
* `C157_kind_violated`: Whatever the class on which from_stream is called, and whatever the stream, the file it gives is a StringFile without name.
* `C157_position_violated`: A stream which was read before is read as empty: the content of the file is lost.
* `C157_eq`: Two files of different classes may be equal, and stay so when copied.

### C158 Writing the script of a workflow or of a run leaves exactly the script — partial

Files/Streams: writing at a position overwrites what is there. Proved for streams not longer than the script; the tail of a longer content stays (violation).

* `C158_partial`: The script of a workflow, or of a run, written in a stream is exactly what the stream then holds, whatever the position of the stream, provided the stream did not hold a longer text. Missing for the full property: `C158_violated`.
* `C158_violated`: When the stream held a longer text, the end of this text stays after the script.
* `C158_failed`: A script which cannot be written leaves the stream as it was.
* `C158_file`: The file of a script, whose name ends with .py, holds exactly the script, whatever it held; the other files are not changed.
* `C158_emptied_violated`: When the script cannot be written, the former file is emptied.

### C159 Giving the inputs to a state, then continuing it, gives the result of the run with these values — partial

Workflow/Interactive: the values of a state as a map from inputs; proved by following the gives, and with the determinacy of runs (C27) for the result. A state also takes a value for a locked input, and its result then differs from the run's (violation).

* `C159_values`: **C159** After any history of calls which give values to a new state, the state holds, for each input, the value given last, else the value given to the constructor, else the default value; nothing was evaluated.
* `C159_missing`: **C159** Giving the inputs of a block raises ValueError exactly when an input which feeds it is neither given nor has a value already; otherwise it succeeds. Values given for inputs which do not feed the block are ignored (`C159_values`).
* `C159_result_partial`: **C159** When the values given one after the other end up being those of a run which succeeds, continuing the state succeeds, and gives the result of the run. Missing: locked inputs, whose values can be changed in a state but not in a run (`C159_locked_violated`), and calls made after blocks were evaluated (`C76_violated`).
* `C159_locked_violated`: **C159** A state takes a value for a locked input, which a run with the same values does not: the results differ.

### C160 Clustering a dataset labels each of its objects and, when scaled, does not depend on units — proved

Data/Fit: the algorithm of scikit-learn is a parameter with the contract of one label for each row; scaling is computed over the real numbers. Proved from the rows of C47 and from how mean and variance follow an affine change.

* `C160_labels`: Without scaling, the labels are those of the algorithm on the rows of values of the dataset; its objects are all kept, in order.
* `C160_scaled`: With scaling, the labels are those of the algorithm on the rows brought to mean 0 and variance 1.
* `C160_empty`: With scaling, a dataset without objects, or whose objects have no common attribute, raises a ValueError.
* `C160_each`: Whatever the scaling, each object has one label.
* `C160_units`: With scaling, the labels do not depend on the units of the attributes.
* `C160_list`: A list of objects is clustered as the dataset made of it.

### C161 Distances and singular values of a dataset are those of its rows of values — partial

Data/Fit: scipy's distances and numpy's singular values are parameters with their contracts. Proved for the entries of the matrix and the normalized values; they are all NaN when all attributes are constant, as for one object (violation).

* `C161_distances`: The distance matrix has one row and one column for each object, in order; it holds the distance between the values of each two objects, for a method of scipy which is symmetric and null between equal vectors.
* `C161_default`: Without arguments, the distance of Minkowski of power 2, which is the Euclidean one, is taken; a power is taken as it is given.
* `C161_empty`: The distances of a dataset without objects are a ValueError.
* `C161_singular_partial`: The normalized singular values, as many as the smaller of the numbers of objects and of attributes, are not negative, in decreasing order, and sum to 1, if some attribute is not constant. Missing: datasets whose attributes are all constant (`C161_singular_violated`).
* `C161_singular_violated`: If all the attributes are constant, as they are for a dataset of one object, the normalized singular values are all NaN: they do not sum to 1.
* `C161_points`: The points of the plot are the normalized singular values numbered from 1; a null one is replaced by 1e-16.

### C162 Plots of a dataset show all its objects and each pair of its attributes — partial

Data/Samples: plots are data, those of plot_data being a contract. Proved from the rows of values (C47), the axes of C91 and the families of C93. With fewer labels than objects there is no plot (violation).

* `C162_samples`: The samples of a dataset stand for its objects, one each, in order.
* `C162_matrix`: The scatter matrix of two attributes or more shows each of them against each other, row by row, with the samples of the objects.
* `C162_tooltip`: In a scatter matrix, the points of the plots of two attributes are described by all the attributes, and by the cluster of the object if the objects are clustered.
* `C162_attributes`: A scatter matrix wants two attributes; a parallel plot wants one; without attribute both raise a ValueError and the histogram an IndexError.
* `C162_parallel`: The parallel plot of two attributes or more shows the samples of the objects along axes which are attributes, none repeated; that of one attribute is its histogram, which shows how its values are spread.
* `C162_families_partial`: In a dataset without labels, each sample is in one family; with labels, if these are the first natural numbers or -1, as those of clustering algorithms are, too. Missing for other labels: `C93_violated`.
* `C162_labels_violated`: A label missing: no plot.

### C163 A Word document built piece by piece holds the pieces given, in order — partial

Misc/DocxBuild: a document is the list of its pieces with its header and footer; python-docx is a contract, with its flat list of cells. Proved by following the calls. A row longer than the first one loses texts, headings beyond the number of paragraphs are not written, and a picture is silently dropped for an empty section (violations).

* `C163_table_partial`: A table none of whose rows is longer than the first one is written with its texts in their places. Missing for the full property: longer rows (`C163_table_violated`).
* `C163_table_violated`: A text of a longer row is lost, without error: its cell is that of the beginning of the next row.
* `C163_table_raises`: A table without rows raises an IndexError, and so does one whose last row is longer than the first.
* `C163_call`: A method adds its pieces at the end of the document and changes nothing else.
* `C163_calls`: Calls one after the other leave in the document what each adds, in order, after what was there.
* `C163_levels`: Headings of level 9 at most are written; a deeper one raises a ValueError.
* `C163_left_violated`: Headings beyond the number of paragraphs are not written by `add_paragraphs`: they are left for the next call.
* `C163_no_tables`: Adding a table to a document built without tables raises a TypeError, whatever the index, with all tables asked for or not.
* `C163_layout`: The header and the footer of a new document hold the texts of the section, in order, after an empty paragraph; the body is empty.
* `C163_alignment`: An unknown alignment raises an AttributeError.
* `C163_delete`: Deleting the layout leaves neither header nor footer, and the body as it was.
* `C163_picture`: A picture is added to the header or to the footer, whichever comes first in the section, after the pictures of its first paragraph, and to nothing else; without section, AttributeError.
* `C163_picture_violated`: With a section without elements, the picture is not added, without error.

### C164 Cutting the final branches of a graph removes them all, and nothing else — proved

Misc/Regions: the rounds of removals, with the set of final nodes as an inductive predicate of the first graph. Proved by an invariant of the rounds, which keep the predecessors of what is left.

* `C164_cut`: Cutting the final branches of a graph removes the nodes of final branches, and only them; the edges between the nodes left are kept.
* `C164_acyclic`: In a graph without cycles, a node is kept exactly when it, or a node it leads to, has not exactly one predecessor.
* `C164_tree`: Of a tree, only the root is left.

### C165 A region of a graph holds the nodes around the given ones — partial

Misc/Regions: networkx's depth first search is modelled, its ancestors are a contract. Proved for what the region holds, and for its completeness when ranks follow the edges, as in trees; in other graphs nodes within the distance may be missed, and the distance does not bound the nodes before the given ones (violations).

* `C165_sound`: The region holds the nodes given, nodes they lead to by at most as many edges as the distance, and all those that lead to them, with all the edges between them. A distance less than 1 counts as 1.
* `C165_complete_partial`: In a graph in which all paths between two nodes have the same length, as in a tree, the region holds all nodes the given ones lead to by at most as many edges as the distance. Missing for other graphs: `C165_missed_violated`.
* `C165_missed_violated`: A node at the distance is missed when the search comes first to the one before it by a longer path.
* `C165_ancestors_violated`: The distance does not bound the nodes before the given ones: all of them are in the region.
* `C165_raises`: A node which is not in the graph raises a ValueError.

### C166 The model an optimization returns is within the bounds and has the cost returned — partial

Misc/Optimize: the searches of scipy and cma are a contract, trusted to return a point within the bounds they are given and its cost. Proved for the model and cost each optimization returns, when the attributes are different; the second of two searches starts from values of attributes and not from the point found (violation, partial for bounds 0 and 1).

* `C166_gradient`: The gradient search returns a model within the bounds, with its cost.
* `C166_cma`: So does the search with CMA.
* `C166_both`: Both searches, one after the other, return a model within the bounds, with its cost, which is not more than that of the model found by CMA alone.
* `C166_errors`: An error of the search, of the model or of an attribute is not hidden: no model is returned.
* `C166_fixed_violated`: A fixed value is replaced when a bound has its name.
* `C166_twice_violated`: With two bounds for an attribute, its value is within the last one only.
* `C166_start_partial`: The second search starts from the point the first found. Proved when all bounds are 0 and 1: what is missing is that, with other bounds, it starts from the values of the attributes, which are no dimensionless point.
* `C166_start_violated`: The first search finds the point 0, the value 10 of the attribute; the second starts from the point 10, the value 110, out of the bounds.

### C167 The Mahalanobis distance is a distance, whatever the units of the attributes — partial

Data/Mahalanobis: numpy's pinv is a contract, the four equations of Moore and Penrose; scipy's formula is modelled on reals. Proved by the uniqueness of the inverse and the inequality of Cauchy and Schwarz; units are proved indifferent for invertible covariances, and shown not to be for others (violation).

* `C167_metric`: The distance is never negative, is the same both ways, is 0 from a point to itself, and no detour is shorter.
* `C167_separates`: Points at distance 0 are the same, when no attribute is a combination of the others.
* `C167_units_partial`: The distances do not depend on the units of the attributes, when no attribute is a combination of the others. Missing: attributes which are combinations of the others (`C167_units_violated`).
* `C167_data`: The covariance matrix of data is a covariance, to which what precedes applies.
* `C167_units_violated`: With two attributes that are always the same, the distance of two points depends on the units, and different points are at distance 0.

### C168 Statistics on pointers count each use of a class once — partial

Values/PointerStats: the loop on the edges with its memo of classes. Proved by an invariant on the counters; a value that holds others and has no class is a KeyError (violation).

* `C168_numbers`: The numbers returned: for each class the edges, other than from the root, to its values, and for each two classes those from a value of one to a value of the other. A class without uses is in no dictionary.
* `C168_succeeds_partial`: The analysis succeeds on every object whose pointers can be followed, when the values that hold others have a class. Missing: attributes of the dictionary that are none of the object (`C168_succeeds_violated`).
* `C168_succeeds_violated`: An attribute of the dictionary that is none of the object, and holds others, is a KeyError.

### C169 The methods offered are those that can be called, with the form and defaults of their arguments — partial

Classes with their attributes in the order of dir, whether each is callable, its signature and docstring (Schemas/Methods.lean); the schemas offered, the form and the default dictionary by induction on the methods; concrete witnesses that one unannotated method blocks all others, and that the defaults are keyed by names while calls read positions.

* `C169_offered`: The methods that have a schema are those a user can call, in order of `dir`, and no others.
* `C169_form_partial`: The form of a method has one entry for each of its arguments that is not reserved, in order, which tells its name, its annotation, its documentation, and its default when it has one. Missing: classes of which one method has no schema (`C169_others_violated`).
* `C169_step`: The form of a method that can be called has one step, without label, documentation or display, with the identifiers that were drawn for it, and its description is the documentation of the method.
* `C169_default_partial`: The default dictionary of a method has one entry for each of these arguments, in order, which stands for its default, or for no value; a method that cannot be called is a KeyError. Missing: the entries have the names of the arguments, and are read by position (`C169_arguments_violated`).
* `C169_others_violated`: The schema of a method is not independent of the others: when one method that can be called has none, as when one of its arguments is not annotated, no method has any, and there is no default dictionary.
* `C169_arguments_violated`: The default dictionary of a method, given back as its arguments, gives no argument at all: it is written with the names of the arguments and read with their positions.

### C170 A workflow is valid exactly when the types of its pipes agree, and a value is told to have a type exactly when it does — partial

Types as a world with the subclass relation and the instances of types (Types/Checks.lean); the loop over pipes and the value check mirrored branch by branch; validity without pipes and checks of plain types proved, with witnesses that is_valid never returns False, raises for plain classes, and that generic types are not looked into.

* `C170_no_pipe_partial`: A workflow without pipes is valid. Missing: workflows with pipes (`C170_never_false_violated`, `C170_raises_violated`).
* `C170_never_false_violated`: No workflow is told not to be valid: the answer, if any, is True.
* `C170_exact_partial`: A workflow is told to be valid exactly when each of its pipes passes the check: another error than a TypeError is not dropped. Missing: an answer for pipes whose check raises (`C170_never_false_violated`, `C170_raises_violated`).
* `C170_raises_violated`: A workflow whose variables have classes as types, and with a pipe, is an AttributeError, whether the types agree or not.
* `C170_value_partial`: A value is told to have a type exactly when it is an instance of it, for a type that `isinstance` takes. Missing: types that `isinstance` does not take (`C170_generic_violated`).
* `C170_none`: No value has the type None, as that of a variable without type.
* `C170_generic_violated`: All values are told to have a type that `isinstance` refuses, as `List[int]`.

### C171 The Markdown of an object has one row for each attribute, with its name, type and value — partial

Values with what the writer reads of them, the order of sets as a parameter (Misc/Markdown.lean); the table is read back by splitting at newlines and bars, by induction on rows and cells; witnesses for booleans, complex numbers, bars and newlines, and colliding links. Also: the lines of a table of contents.

* `C171_partial`: **C171** (part): the Markdown of an object says its name and its class and has a table, which is read as the titles and one row for each attribute, in order, with its name, the name of its type and its value as it should be shown, each cut at 25 characters. Missing for the full property: values that are booleans …
* `C171_dataset_partial`: The Markdown of a dataset of at most six elements, or of twelve, says its name, how many elements of which classes it holds, and has a table, which is read as the common attributes and one row of numbers for each element. Missing for the full property: other numbers of elements, for which rows are repeated or left out …
* `C171_unprinted`: A table of more rows than the limit has the first rows, up to half of the limit, a line that says how many rows beyond the limit there are, and as many last rows.
* `C171_bool_violated`: A boolean is shown as a number.
* `C171_complex_violated`: An object with an attribute that is a complex number has no Markdown.
* `C171_bar_violated`: A bar in a text makes one more cell, a newline one more row.
* `C171_contents`: A table of contents is its title, an empty line and one line for each heading, in order, which holds the heading and its link.
* `C171_contents_violated`: Two headings of which one has a space where the other has a dash have the same link in a table of contents.

### C172 A type written as a string is read back as the same type by deserialize_typing — partial

The reading of old type strings mirrored branch by branch with the class names as a parameter (Types/OldTyping.lean); read back by induction on the type; witnesses for builtins as arguments, tuples, unions and dictionaries of generic types.

* `C172_partial`: **C172** (part): a builtin, `Type`, a class, `Any`, a list, a tuple of one type, a dictionary or an instance of classes, and any depth of lists, tuples of one type and iterators of these, is written as a string which is read back as this type. Missing for the full property: builtins as arguments (`C172_builtin_violated`), …
* `C172_builtin_violated`: No list of a builtin type can be read back.
* `C172_tuple_violated`: A pair of classes of the same type is read as a tuple of any length.
* `C172_variadic_violated`: A tuple of any length cannot be read back.
* `C172_union_violated`: A list of a union cannot be read back, nor can the union.
* `C172_dict_violated`: A dictionary of lists cannot be read back.
* `C172_names`: **C172** The strings of builtins, written with or without their module, and of the files and methods of dessia_common are read as these types.
* `C172_dict_one`: **C172** A dictionary of one generic type is refused with a TypeError.
* `C172_old_builtins`: **C172** In a list, a name of the former module `__builtins__` is read as the class of this name of `builtins`.

### C173 The description of an input of a workflow is that of the parameter it fills — partial

Blocks as a tree with docstrings, annotations and inputs which compare by identity (Workflow/BlockDocs.lean); induction on the tree for the blocks which call and the ForEach; for every WorkflowBlock, every free variable and every unknown parameter, proofs that the description is lost.

* `C173_partial`: **C173** (part): the description of an input in the schema of a workflow is what the documentation of its block says of the parameter it fills, for the blocks which call a class or a method with a well written docstring, for blocks without documentation, and for those which run a workflow of such blocks for each element of a …
* `C173_sub_violated`: **C173** is violated: no input of a workflow used as a block ever has the description of the parameter it fills: it has none, or that of a failure.
* `C173_free_violated`: **C173** is violated: when one input of a workflow run for each element of a list is a free variable, none of the inputs of the block has a description: the documentation of all of them has failed.
* `C173_unknown_violated`: **C173** is violated: one documented name which is not that of an annotated parameter, and the documentation of every input of the block has failed.

### C174 The result of a run depends only on what leads to the output — proved

Two runs of the model of Workflow/Engine.lean are compared. Spec: what the output needs (Needs), the value of an input (givenTo), a common part (SamePart). By induction on what variables must hold (Den) along the part, then completion of the second run. Corollaries for needless inputs and added blocks.

* `C174_part`: The result of a run depends only on the blocks, the pipes and the values which the output needs: when another workflow has them, and its inputs have values, its run succeeds as well, for every order of its sets, with the same result.
* `C174_inputs`: The values given to the inputs which the output does not need do not matter.
* `C174_extra`: Adding blocks which do not feed the existing ones, and giving values to their inputs, changes no result.

### C175 The order in which a workflow is written does not matter — proved

A permutation of blocks and pipes keeps well-formedness and the whole workflow is a common part in the sense of C174, in both directions.

* `C175_order`: The order in which the blocks and the pipes of a workflow are listed, and that in which its input values are given, do not matter: with the same value for each input, the runs succeed together with the same result.
* `C175_given`: The order in which the values are given does not matter.

### C176 Locking an input or giving it a default value is giving it this value — proved

Locking (Form.lean lockVar) and default values change only the values with which the inputs start; the whole graph is a common part in the sense of C174.

* `C176_lock`: Locking an input with a value is the same as giving it this value, whatever else is given, even to this input.
* `C176_default`: A default value is the same as giving it, when the user gives none to this input.

### C177 Filters can be reordered, chained, applied by parts and negated — proved

Corollaries of a closed form of filtersApply of Filters/Model.lean: it succeeds exactly when each filter can be evaluated on each object, and keeps the objects satisfying the filters. Opposite comparisons are shown exclusive and exhaustive.

* `C177_concat`: Filtering a list made of two parts is filtering each part.
* `C177_objects`: The order of the objects does not change which are kept.
* `C177_filters`: The order and the repetitions of the filters do not matter.
* `C177_chain`: Filtering with the filters of two lists, joined by "and", is filtering with the first list, then what it keeps with the second.
* `C177_opposite`: A filter and the one with the opposite comparison share out the objects.

### C178 A Pareto front does not depend on the order of the points nor on units — proved

Corollaries of the exact characterisation of pareto_indexes (C43): the front is the duplicate-free list of the non dominated costs; domination is transitive and invariant under increasing maps.

* `C178_front`: The points of the front are, each once, the points which no point dominates.
* `C178_order`: The front does not depend on the order of the points, nor on their repetitions.
* `C178_again`: The front of a front is the whole of it.
* `C178_more`: A point which is dominated by, or has the same costs as, a point before it changes nothing to the others, and is not kept.
* `C178_units`: The points kept do not depend on the units of the costs, nor on the scale: any increasing change of each cost leaves them the same.

### C179 Saving, loading and saving again gives the same document — proved

Corollaries of the round trip of C12 and of the exact result of copies of C08: the value read back is a rewriting of the original (tuples read as lists where the type says nothing) which serialize does not see, by induction on values; then by induction on the number of rounds.

* `C179_save`: An object which can be read back is saved as a document; the object loaded from it is saved as the same document, and is found again, the same, when it is loaded a second time.
* `C179_rounds`: The same for any number of rounds: the document never changes.
* `C179_copy`: A deep copy is saved as the same document as the original, when no two different objects inside it are equal.

### C180 The vector of an object holds the values of the numeric features of its class — partial

Data/Features.lean models get_attribute_names, vector_features with an arbitrary order of sets, and to_vector, which reads the features in lower case by path. Membership is characterised exactly; the vector is shown aligned for names without capitals. Violated for names with capital letters (another attribute is read, or AttributeError) and for the order of the features, which changes between runs.

* `C180_exact`: The features of a class which declares none are its numeric attributes and its numeric parameters, without those of DessiaObject, each once, whatever the order of sets is; a class which declares features has these features, in this order.
* `C180_vector_partial`: When the names of the features have no capital letters, the vector of an object is the list of the values of its features, in the order of the features, and there is a vector exactly when each feature has a value. Missing: names with capital letters (`C180_case_violated`, `C180_missing_violated`).
* `C180_place`: Whatever two orders the sets take in two runs, the value which stands in the vector at the place of a feature is the same: a dataset, which reads the vector at the place of each feature, holds the same columns.
* `C180_case_violated`: A feature with a capital letter is read under another name: the vector of a gas holds the time twice and the temperature not at all.
* `C180_missing_violated`: A feature with a capital letter on an object which has nothing under the small letter raises AttributeError, though the feature has a value.
* `C180_order_violated`: Two runs of Python may give the features, hence the vectors, of the same class in different orders.

### C181 Filters printed alike, or equal, keep the same objects — partial

Filters/Print.lean models the printing, comparison and hash of filters and the printing of lists of filters. Texts are shown to determine the filters by cutting them at the first blank, operator character, quote or line end. Violated beyond fifteen filters (the others are not printed) and for empty lists (ValueError); two writings of the same comparison are not equal.

* `C181_print`: Two filters printed alike accept the same objects and fail on the same objects, whatever the room given to their attributes and bounds.
* `C181_list_partial`: Two lists of at most fifteen filters printed alike, the names of which hold no line end, keep the same objects of any list. Missing: longer lists (`C181_truncated_violated`) and names with line ends.
* `C181_equal`: Equal filters have the same hash, are printed alike and accept the same objects.
* `C181_width`: A filter is printed with its sign after ten characters, or after the name if it is longer, and two blanks before the bound.
* `C181_aligned`: A list of filters is printed with a line which tells how many they are and how they are combined, then one line for each of the first fifteen filters, in order: all the signs are in the same column, two blanks after the longest name, and all the bounds end in the same column after each sign.
* `C181_truncated_violated`: The filters after the fifteenth are not printed, and nothing tells it on their lines: two lists are printed alike, one of which keeps an object which the other does not.
* `C181_empty_violated`: A list without filters can filter objects and cannot be printed.
* `C181_alias_violated`: Two writings of the same comparison are printed alike and accept the same objects, and are not equal.

### C182 Parts of a dataset make it up — partial

Laws of `Ds.getitem` and `Ds.add` (Verif/Data/Dataset.lean), proved in Verif/Data/PartsLaws.lean from the slices and masks of lists: cut in two and joined, added, reversed twice, shared out by a mask, selected again. The last one is partial: once nothing is left, selecting gives `[]` and not a dataset (witness).

* `C182_split`: Cutting a dataset anywhere, even out of its bounds or from its end, and putting the two parts one after the other gives the objects, rows and labels of the dataset.
* `C182_add`: Adding the two parts of a dataset without labels gives a dataset with the same objects, in the same order; when the common attributes were known, they and the matrix are the same as well.
* `C182_reverse`: Reversing a dataset twice gives it back, with its rows, labels, name and common attributes.
* `C182_again_partial`: Leaving out `a` objects and then `b` more is leaving out `a + b`, as long as some are left by the first step. Missing: a first step which leaves nothing (`C182_again_violated`).
* `C182_again_violated`: Once no object is left, selecting again gives `[]`, not a dataset: the two ways of leaving out the objects then differ.
* `C182_mask`: A mask and its opposite share out a dataset: each object goes to one of the two parts, with its row and with its label.
* `C182_masks_partial`: Selecting by `p` and then, among what is left, by `q` is selecting by `p` and `q` at once, as long as `p` leaves something. Missing: a first filter which leaves nothing.

### C183 Reading and writing by path follow the laws of a place — partial

Laws of `getPath` and `setPath` (Verif/Values/Paths.lean), proved in Verif/Values/PathLaws.lean by induction on the path after writing `setPath` as a recursion from the root. Writing back is partial: a segment of digits is read at an integer key but written at a string key (witness). Writing in any order is partial: new keys come in the order of the writes (witness).

* `C183_read_steps`: Reading `#/p/q` is reading `#/q` in what is read at `#/p`; it raises what the first of the two steps to fail raises.
* `C183_read_steps_violated`: With references the law is lost: they are understood from the root of what is read.
* `C183_write_twice`: The last write wins: writing twice at the same path is writing the second value only.
* `C183_write_back_partial`: Writing at a path what is read there changes nothing, if no dictionary has integer keys and there are no tuples. Missing: integer keys, for which the code does not satisfy the property; tuples cannot be written in.
* `C183_write_back_violated`: In a dictionary with integer keys, writing back what was read adds an entry: `#/1` is read at the key `1` and written at the key `'1'`.
* `C183_write_order_partial`: Writing at two existing places on different branches gives the same in both orders, if no dictionary has integer keys. Missing: paths that do not exist yet, for which the order of the new keys differs; integer keys; indices with a sign.
* `C183_write_order_violated`: Two new entries come in the order of their writing.

### C184 The order before a sort does not matter, nor does sorting twice — proved

Laws of `Ds.sort` (Verif/Data/Dataset.lean), proved in Verif/Data/SortLaws.lean for any `argsort` meeting numpy's contract: from C46 and the uniqueness of the sorted sequence. Ties: a stable order is not promised (witness with an argsort that the contract allows).

* `C184_order`: Two datasets with the same objects in different orders have, once sorted by the same values, their values in the same order; they have their objects in the same order if no two objects have the same value.
* `C184_descending`: Sorting in descending order gives the values of the ascending order, reversed; the objects are reversed as well if no two of them have the same value.
* `C184_again`: Sorting again what is sorted, by an attribute which all objects have, keeps the values in their places, and the objects as well if no two of them have the same value.
* `C184_ties`: With equal values the order of the objects may change from one sort to the next, since numpy's default sort is not stable: here with a sort which numpy's contract allows.

### C185 The order in which attributes and entries were set does not matter — proved

Verif/Values/OrderProps.lean, over serialize, deser, loadDict and dataEq/chooseHash: Alike relates values that differ only by the order of entries and attributes; saving, loading, equality and hash are shown to respect it by induction on that relation. Documents with references are not covered.

* `C185_save`: Values that differ only by the order of their attributes and dictionary entries are saved as documents that differ only by the order of their entries; one cannot be saved if the other cannot.
* `C185_load`: Documents without references that differ only by the order of their entries are read as values that differ only by the order of their entries: the attributes of the objects read come in the order of the constructor.
* `C185_equal`: Values that differ only by the order of their attributes and entries have equal data and the same hash; objects are `==`.

### C186 A workflow used as a block gives what its own blocks would give in its place — proved

Model: the block of a workflow as a block whose function is a run of the inner workflow (`subBlock`), and the workflow with the inner blocks in its place (`unfolded`). Proof: a run gives y exactly if the data-flow equations give y to the output (C28_result), and the equations of the two workflows give the same values to corresponding variables, by induction on derivations one way and on the rank of variables the other way.

* `C186_unfold`: If a workflow which has a block for another one gives `y`, then the workflow with the blocks and pipes of the other one in its place gives `y` too, for the same values of its inputs and any order of the sets.
* `C186_fold`: The other way round, if the output of the other workflow needs all its inputs. (Otherwise a block that raises may compute an input which is not needed: it is run for the block, and is not run when its blocks are in its place.)

### C187 A part of a workflow can be replaced by what it gives — proved

Verif/Workflow/ReplaceProps.lean, over run and the data-flow equations Den: by C28_result a run gives y exactly if the equations give y to the output; the equations with a pipe cut, or with blocks replaced, are shown to have the same solutions by induction on derivations, both ways.

* `C187_cut`: Cutting a pipe and giving to its end the value that went through it does not change the result.
* `C187_replace`: Blocks can be replaced by others with the same variables which give the same on the values they get: the result is the same. They may differ on all other values.

### C188 The variables of a workflow matter only by how they are connected — proved

Verif/Workflow/ReplaceProps.lean: RenamedBy relates a workflow and the one with its variables replaced through an injective function; variables and inputs are computed in the same order (induction on the pipes), and the equations have corresponding solutions (induction on derivations).

* `C188_renamed`: The result does not depend on which variables a workflow is made of: with each variable replaced by another one, different for different variables, and the same values in the same order, the result is the same.

### C189 A ForEach block runs its workflow on each element, and two in a row are one — proved

Verif/Workflow/EachProps.lean: the loop of ForEach.evaluate on a block for a workflow (eachBlock) is characterised element by element, by induction on the elements; the workflow of two blocks in a row (chain) by the data-flow equations; fusion follows by composition of the two relations between elements and results, and for a workflow around by C186 and C187.

* `C189_runs`: A ForEach block on a workflow gives the list of the results of the runs of this workflow, one for each element in the place of the iterated input, in order; it gives a result exactly if each of these runs does, and the other inputs are the same in all of them.
* `C189_parts`: The elements can be given by parts: the results of the parts, one after the other, are the results of the whole; and reordered: the results are reordered.
* `C189_fusion`: Two ForEach blocks in a row, the second one on the results of the first one, give what one ForEach block gives on the two workflow blocks in a row.
* `C189_chain`: In a workflow, two ForEach blocks in a row, each with its own output, can be replaced by one ForEach block on the workflow of their two workflow blocks in a row: the results are the same, for all values given to the inputs. `W` is the workflow with the two of them in a block of their own, `unfolded W …` the one with the two of …

### C190 Matches of types can be chained — partial

Verif/Types/ChainProps.lean, over typematch: on plain types typematch is characterised by an inductive relation Wider, by induction on types; Wider is transitive when subclasses are. Counterexamples: bool and float, Any as a class, tuples of different lengths, the order of the arguments of an optional type.

* `C190_exact_partial`: On types made of classes, Any, lists, dictionaries and tuples, with facing tuples of the same length, typematch tells exactly whether the second type is wider. Missing for the full property: see `C190_partial`.
* `C190_partial`: If such a type matches another one, which matches a third one, then the first matches the third. Missing for the full property: a subclass of int is not one of float, as bool (`C190_bool_violated`); from Python 3.11 on, Any between two types (`C190_any_violated`); tuples of different lengths (`C190_tuple_violated`); unions …
* `C190_bool_violated`: With the classes of Python, bool matches int, and int matches float, but bool does not match float.
* `C190_any_violated`: Where Any is a class, a list type matches Any, which matches object, but it does not match object.
* `C190_tuple_violated`: A pair matches a tuple of one, which matches any pair with the same first type.
* `C190_order_violated`: Union[None, List[T]] equals, hence matches, Optional[List[T]], which matches List[T]; but it does not match List[T].

### C191 A change at one place shows only at this place in a diff — partial

Verif/Values/DiffPlaceProps.lean, over diff: ChangedAt relates two values equal but at one path; by induction on this relation, since the diff of equal parts is empty (C05), the diff is the one of the changed values. For objects with a name the exact diff is computed: swapped values, and one more entry for the name.

* `C191_partial`: If two values differ only by what is at one place, through dictionaries, lists and tuples, their diff is the one of what is at this place, with its path. Missing for the full property: objects (`C191_object_violated`).
* `C191_object_violated`: If two objects of a class, with a name, differ only by the value of one attribute, and do not have equal data, then their diff has the entries of the diff of the two values of this attribute, but in the wrong order, and one more entry, which tells that the first object has no name.

### C192 Statistics do not depend on the order of the objects and those of a sum follow from those of its parts — partial

Verif/Data/StatLawsProps.lean, over Ds.mean, Ds.variances and Ds.add: the values of an attribute of reordered objects are the reordered values, and sums do not depend on the order; the values of a sum are those of the parts in a row, and the sum of squared distances to any point is the variance plus the squared distance to the mean, counted. Counterexample: classes listing the same features in two orders.

* `C192_reorder_partial`: Reordering the objects of a dataset changes neither its means nor its variances. Missing: datasets of several classes, whose common attributes may come in an other order (`C192_order_violated`).
* `C192_sort_partial`: Sorting a dataset changes neither its means nor its variances, when its common attributes come in the same order after the sort. Missing: common attributes in another order after the sort (`C192_order_violated`).
* `C192_order_violated`: **C192** is violated by the code: the means follow the features of the first object.
* `C192_sum_partial`: In the sum of two datasets which are not empty and have the same common attributes, each mean is that of the two means, counted with the numbers of objects, and each variance comes from the two variances and the two means. Missing: datasets having other common attributes, whose sum may not be readable (`C47_sum_violated`).

### C193 Exchanging two values exchanges the sides of their diff — partial

Verif/Values/DiffSwapProps.lean, over diff: by induction on the size of the two values, the entries of the diff of two dictionaries being the concatenation of those of their keys, which are a permutation of each other when nothing is missing either way. Counterexamples: keys missing on one side only, the longer dictionary told first, a boolean against an integer, the name of an object.

* `C193_partial`: Exchanging two values exchanges the values told by their diff, when it tells nothing missing either way. Missing: objects, booleans and measures, and dictionaries having other keys (`C193_missing_violated`, `C193_longer_violated`, `C193_types_violated`, `C193_objects_violated`).
* `C193_missing_violated`: **C193** is violated by the code: of two dictionaries of one length, the diff tells the key of the first only, either way.
* `C193_longer_violated`: **C193** is violated by the code: when the second dictionary has more keys, its values are told first, either way.
* `C193_types_violated`: **C193** is violated by the code: a boolean is an integer, and an integer is no boolean.
* `C193_objects_violated`: **C193** is violated by the code: of two objects having the same name, the diff tells the name of the first missing, either way.

### C194 A new block has the ports which its arguments announce — partial

Verif/Workflow/PortsProps.lean, over construct and ports: case analysis on the class of the block, the numbered names being different because numbers are written differently; induction on the inputs for ForEach. Counterexamples: a ForEach whose index counts from the end has no iterated input; a method with a parameter called Model gives two inputs of this name.

* `C194_numbers`: A new `Sequence`, `Concatenate`, `Product`, `Sum` or `ConcatenateStrings` has as many inputs as it was asked for, whose names are numbered in order without gap.
* `C194_archive`: A new `Archive` has one numbered input per export and then the name of the file, of which it has a value.
* `C194_unpacker`: An `Unpacker` has one output for each index that it is asked for, with the index in its name.
* `C194_fixed`: The names of the inputs and of the outputs of the other new blocks.
* `C194_export`: The name of the file of an `Export` is the value of its second input; an `Export` made without a name of file is given `export`.
* `C194_untouched`: Every port of a new block is without label and at the origin, and no output has a value (but the output of a workflow used as a block).
* `C194_forEach_partial`: The `ForEach` of a workflow block over one of its inputs has one input per input of the block. The one iterated over is free, the others keep their type, their value and their lock. Missing: negative indices (`C194_forEach_violated`).
* `C194_forEach_violated`: **The code violates the property**: a `ForEach` whose index counts from the end is made without error, and none of its inputs is the one iterated over.
* `C194_forEach_names`: The inputs of a `ForEach` have different names if those of its block have.
* `C194_names_partial`: The inputs of a new block which is not made of a workflow have different names, if no parameter of a method is called `Model`. Missing: such parameters (`C194_names_violated`).
* `C194_names_violated`: **The code violates the property**: the block of a method which has a parameter `Model` has two inputs of this name.

### C195 The dict of a block tells what the block was made with — proved

Verif/Workflow/BlockDictProps.lean, over write: a path of keys and indices into the dict is a specification of its own, and what is found there is computed for each class of block, the ports by induction on their list.

* `C195_base`: The dict of a block tells its name, its place, and each of its ports at its rank.
* `C195_method`: The dict of the block of a method tells the class, the name and the kind of the method.
* `C195_attribute`: The dict of a block which reads or sets an attribute tells the class and the name of the attribute, that of a block which shows a view tells the class and the name of the view.
* `C195_filter`: The dict of a `Filter` tells its operator and each of its filters at its rank.
* `C195_plots`: The dicts of the blocks of several views and of several plots tell the name of what they show, of any class, and each of the views at its rank.
* `C195_arguments`: The dicts of the other blocks tell the arguments which the blocks were made with; that of an `Archive` tells the number of its inputs but one.

### C196 Distances and covariances are geometric — proved

Verif/Data/GeometryProps.lean, over manhattan, euclidian, minkowski, the norms and covariance: the differences of the coordinates are computed by induction, a norm of a permutation is the norm; the comparison of orders divides by the norm of the smaller order, so that every coordinate is at most one.

* `C196_manhattan`: The Manhattan distance does not depend on the origin nor on the order of the coordinates, and follows the unit.
* `C196_euclidian`: The Euclidean distance does not depend on the origin nor on the order of the coordinates, and follows the unit.
* `C196_minkowski`: So does the Minkowski distance of any order from one on.
* `C196_compare`: The greatest coordinate is at most the Euclidean norm, which is at most the sum of the coordinates, which is at most the greatest one times their number.
* `C196_orders`: The greater the order, the smaller the Minkowski distance.
* `C196_covariance_scale`: The covariance is proportional to the units of the two quantities.
* `C196_covariance_sum`: The covariance with a sum is the sum of the covariances.
* `C196_covariance_reorder`: The covariance does not depend on the order of the observations.

### C197 Equality and hash of wholes follow from those of their parts — proved

Verif/Values/ContextProps.lean, over dataEq and chooseHash: the relation of two values that differ at one place is a specification of its own, and the proof is by induction on it, the parts around the place being equal to themselves.

* `C197_equal`: Two wholes which differ at one place are equal exactly when what they hold there is equal.
* `C197_hidden`: A whole is equal to itself with another value in an attribute which is not data, as the name, of an object anywhere below it.
* `C197_hash`: Two wholes which differ at one place have the same hash if what they hold there has.
* `C197_hash_name`: The name of an object anywhere below a value does not change its hash.
* `C197_sequence`: The hash of a whole does not tell which kind of sequence is inside.

### C198 Copies can be copied again — partial

Values/CopyAgainProps: induction over the copy: what a copy gives is neat (exactly the constructor arguments, no tuple), every well-formed built value has a copy, and the copy of a neat value is the value itself when == objects are the same one; a witness where two == objects are merged.

* `C198_total`: C198. An object built by its constructor, and whatever holds such objects, can be copied.
* `C198_again`: C198. Whatever was copied, even attributes that are not arguments of constructors and equal objects with different names, each object in the copy has exactly the arguments of its constructor, no tuple is left, and the copy can be copied again.
* `C198_partial`: C198, what holds of a second copy: it is the first one, when no two different objects inside the first one are equal. Missing: copies in which different objects are equal (`C198_violated`).
* `C198_violated`: C198 is violated by the code: two objects that differ by an attribute which is not an argument of their constructor are copied apart; their copies have lost it and are equal, so that the copy of the copy gives the name of the first one to both.
* `C198_shallow`: C198. Taking a shallow copy of a shallow copy gives the same object.

### C199 Each edition of the steps of a workflow changes what it names, and nothing else — partial

Workflow/StepEditProps: the exact effect of each edition on the abstract state of the steps (labels, inputs, displays, documentations, spare inputs), and insert followed by remove is the identity; a witness where an index out of range is met after others have been moved.

* `C199_move`: C199. `change_inputs_step` puts all the inputs given in the given step and moves no other one; the spare inputs are the former ones without them; no step is added, removed or renamed, and the displays and documentations of the steps stay.
* `C199_refused_violated`: C199 is violated by the code: when an index given to `change_inputs_step` is out of range it raises, but the inputs before it have been moved.
* `C199_refused_partial`: C199, what holds of refused editions: renaming a step, writing its documentation, removing its display, reordering the steps or the inputs of one, and moving one input change nothing when they raise. Missing: moving several inputs (`C199_refused_violated`) and removing an input from its step (`C33_spare_violated`).
* `C199_rename`: C199. `rename_step` gives the step its new label and changes nothing else.
* `C199_document`: C199. `save_step_documentation` gives the step its new documentation and changes nothing else.
* `C199_free`: C199. `remove_input_from_step` takes the input out of its step, makes it spare, and changes nothing else.
* `C199_insert`: C199. `insert_step` adds one empty step with the given label, at the given place or at the end, and changes no other step.
* `C199_undo`: C199. Removing the step just inserted gives back the steps, each with its inputs, and the spare inputs.

### C200 Random sample data has the points and clusters asked for — partial

Misc/Demo, Misc/DemoProps: the loop on the clusters with any fair generator; invariant: the points left are not negative and the sizes add up to what was taken; the sizes are compared to even shares by products.

* `C200_partial`: C200. Whatever the generator draws, the sizes of the clusters are as many as asked, none is negative, they add up to the number of points, and each but the last lies between the half and the double of an even share of the points left. Missing: no cluster can be asked for (`C200_violated`).
* `C200_violated`: C200. When no cluster, or a negative number of them, is asked for, one cluster with all the points is given.
* `C200_dataset`: C200. A dataset has as many points as asked, each of as many coordinates as the class has, in as many clusters as asked: each cluster has its share of the points.

### C201 Sample objects follow their source — partial

Misc/Demo, Misc/DemoProps: the text of a file is written from its table of cells, and what is read is related line by line to it; witnesses for a lost last line and for the removal of duplicates.

* `C201_partial`: C201. The cars of a file whose lines end by an end of line are those of its lines after the first, in order, up to the given number of them: they are given exactly when each of these lines is a car. Missing: the last line is lost when no end of line ends it (`C201_violated`), and the removal of duplicates raises …
* `C201_tail`: C201. What follows the last end of line is not read.
* `C201_violated`: C201. The last line of a file which does not end by an end of line is lost: a file of one car has none.
* `C201_duplicates_violated`: C201. The removal of duplicates raises an AttributeError as soon as there is a line to read.
* `C201_power`: C201. The output power has one value for each time which has a power, at eight tenths of it.
* `C201_generate`: C201. The models generated are as many as asked; the values of the models follow one another from the parameter, and those of the submodels are its multiples.
* `C201_progress`: C201. The progress told by a long generation starts at 0, grows at each call, and ends at 1.

### C202 A generated structure of beams is as asked, and its drawing refers to its beams — proved

Misc/Beams, Misc/BeamsProps: induction on the loops of the generator for any fair draws; the references of the shapes are read with the model of get_in_object_from_path in the object of the structure.

* `C202_generate`: C202. Whatever is drawn, as many structures as asked are generated, each named by its rank, with from one beam to the greatest number of beams, of lengths within the bounds, above a horizontal beam of ten by gap.
* `C202_refused`: C202. Bounds between which there is no length, or a greatest number of beams below one, are refused as soon as a structure is asked for.
* `C202_reference`: C202. The drawing of a structure has one shape for its horizontal beam and one for each vertical beam, in order; the reference of each shape leads, in the structure, to the beam it draws: a rectangle as long as the beam and a tenth of it wide.
* `C202_places`: C202. The vertical beams of a structure are drawn from left to right, each from its own place, and start within the horizontal beam.

### C203 Fronts of Pareto by parts, and best compromises — proved

Consequences of the exact characterisation of the front (C43): membership in the front is quantified over all points, so fronts of unions, of one more point, and minimizers of a positive weighted sum (a strictly monotone cost) follow.

* `C203_parts`: C203. The front of two sets of points together is the front of their two fronts.
* `C203_joins`: C203. A new point which no point dominates or equals joins the front, from which exactly the points it dominates go.
* `C203_best`: C203. The best point for a cost made of all of them, with a positive weight for each, is on the front.
* `C203_single`: C203. There is a front as soon as there is a point, and with a single cost it is the least one.

### C204 The pointers of a document are listed with all its places — partial

graphElements models pointer_graph_elements by structural recursion, next to findRefs; induction on the document against the specifications RefAt, StandsAt and ChildOf.  The shape of edges (pairs for lists, triples for dicts) is violated by the code.

* `C204_pointers`: C204. The pointers listed are exactly the references of the document, each from its place to what it refers to.
* `C204_links`: C204. The other edges are exactly those from each value to what it holds: all the elements of a sequence, and the entries of a dict which are neither numbers, texts nor None.
* `C204_nodes`: C204. The nodes are the ends of the edges: all the places where an edge leads and those of the references, with what these refer to.
* `C204_document`: C204. The analysis of any document succeeds.
* `C204_shape_violated`: C204 is violated for the shape of the edges: those of a list are pairs, those of a dict are triples, so that no loop over the triples can read the edges of a document with both.
* `C204_leaves_violated`: C204 is violated for the values which are neither containers nor references: a number is a node in a list, and not in a dict.

### C205 A new workflow holds what it is given — proved

mkWf models Workflow.__init__ with its check of the output and its search of the name of the result; case analysis, with the free variables specified by VarOf and PortOf.

* `C205_output`: C205. A workflow is made exactly when it has no output or its output is an output of one of its blocks.
* `C205_given`: C205. It holds what it was given; and it has a variable for the name of its result, either the free variable of this name or the detached variable of the module, which is added exactly when there is none.

### C206 Documents of workflows of former versions are read — proved

Workflow/OldDict models dict_to_object with missing entries and the loop on imposed values over the store of variables; induction on the loop (it changes neither the graph nor the names), then equality of starting values as in C176.

* `C206_missing`: C206. A document without imposed values, in which entries may be missing, is read as its present form.
* `C206_readable`: C206. A document is read exactly when its present form is and its addresses all lead to variables of the workflow.
* `C206_imposed`: C206. What is read is the workflow of the present form of the document, in which each variable with an imposed value is locked on it, on the last one if there are several; nothing else changes.
* `C206_runs`: C206. When the values are imposed to inputs, the workflow read runs as its present form with these values given by the user.

### C207 The type told for a value reads it back — partial

Values/RecType models recursive_type and deserialize_with_type by structural recursion; induction with the round trip of C12 at the objects.  Measures have no type told and numbers, strings and dicts cannot be read with theirs: witnesses.

* `C207_told_partial`: C207, what holds: a type is told exactly for the values whose sequences hold, at any depth, no measure, class, file nor value of an unknown class. Missing: these values, see the `_violated` theorem.
* `C207_told_violated`: C207 is violated by the code: a measure is a number which can be written, and no type is told for it; nor for a class, nor for a file.
* `C207_names`: C207. The type told for a sequence is the list of those of its elements, that of an object its class, that of any other value its kind.
* `C207_read_partial`: C207, what holds: `None`, objects, and their sequences at any depth, are read back with the type told for them, sequences becoming lists; the value read is equal to the original one. Missing: numbers, strings and dicts, see the `_violated` theorem.
* `C207_read_violated`: C207 is violated by the code: no number, string nor dict is read with the type told for it.
* `C207_unnamed`: C207. A document which does not say its class is read, with a class as type, as the document which says that class.

### C208 Descendants of a workflow compute the same — proved

Lineage is the inductive set of the histories of deepCopy and of toDict and ofDict.  Invariant Storable (the hypotheses of C36 and C37), kept by each operation by the replica each one makes; renamings compose.

* `C208_goes_on`: After any history of copies and of savings, the workflow can still be copied, saved, and read back.
* `C208_runs`: A workflow which comes from another by any history of copies and of savings computes what the other computes: its inputs are the counterparts of the inputs of the other in the same order, its output is the counterpart of the output of the other, its blocks and its steps have the same kinds, names and labels, and each variable …
* `C208_apart`: A history of copies and of savings changes no variable which existed before it, so that the workflow it starts from stays as it was; unless it is empty, the variables of the workflow it ends with are all new, so that what is done later to one of the two workflows has no effect on the other.

### C209 Whatever was done before, a session of evaluation can be completed, with the result of the run — proved

`Reached` (Spec.lean) is any interleaving of the operations of a state; a witness state with all the leading blocks evaluated shows that each of these evaluations succeeds on the values of the inputs (`den_same`), so `continue_run` cannot fail (`continueRun_total`) and stops only when all of them are evaluated (`Good.complete`); gifts by induction on the list of missing inputs.

* `C209_completes`: If, with some values of the inputs, the blocks which lead to the output could be evaluated in some way, then from any state which was reached with these values, once it has them all, continuing evaluates them all, and ends with the same output.
* `C209_give`: A value can be given to an input at any time. The state then has it, keeps the values of the other inputs, and nothing is evaluated.
* `C209_rest`: Whatever was done before, giving the values which are missing, in any order, is possible, and gives a state which has a value for each input.
* `C209_run`: A run succeeds exactly if it can start and some way of evaluating the workflow with its values evaluates all the blocks which lead to the output: if the run fails, no order of calls on a state gets round the failure.
* `C209_ends`: From any state reached with the values of a run which succeeds, giving the missing values and continuing completes, with the output of the run.

### C210 The class found for a name does not depend on the names asked before — partial

Both functions with the cache and the recursion limit as explicit state, the interpreter being a parameter which may change between calls; invariant `Told`: each class of the cache is what its name stands for (`Means`, defined without cache); induction on the calls. Violated for texts naming a module whose import raises another exception, and for the recursion limit, which is set to 3000.

* `C210_history`: What is found for a name is what it stands for: the member of the module named before its last dot, or a literal if it has no dot. It does not depend on the calls made before.
* `C210_named`: The name of a member of a module leads to this member.
* `C210_stays`: Once a class was found for a name with a dot, it is the one found ever after, even if the interpreter changes.
* `C210_again`: A failure is not remembered: the same name is found later, if by then it stands for a class.
* `C210_text_partial`: A text is read as itself if it has no dot, starts with a dot, or stands for nothing because the module is not found, has no such member, or its name is ill-formed; otherwise it is read as what it stands for. Missing: texts naming a module whose import raises any other exception (`C210_text_violated`).
* `C210_text_violated`: A text which names a module whose import fails in an other way cannot be read.
* `C210_limit_partial`: Finding a class leaves the recursion limit as it is if it is 3000. Missing: the other limits (`C210_limit_violated`).
* `C210_limit_violated`: Finding a class, whatever its name, sets the recursion limit to 3000: a user who had set a greater one for deep objects loses it.

### C211 Documents of archives of former versions name the ports of the block — partial

The decorator of the reader of archives on documents with lists of names, by induction on the lists; witness of names lost at the next writing.

* `C211_names`: C211. An archive is read with the names which its document gives to its first ports, and its other ports keep theirs; names in excess are left out, and nothing but names is changed.
* `C211_now`: C211. The present documents of archives, which give no names, are read as the archives which were written.
* `C211_again_violated`: C211, violated: the names are lost when the archive read is written and read again.

### C212 The Markdown of a run has a line for each evaluated block — partial

The record of memory of the evaluations (two lists of pairs, made dictionaries) and the three writers on top of the tables of C171; the table is read back as one line for each evaluated block with its last evaluation, by induction on the evaluations from the last. Violated for states (a positional argument no parameter takes: TypeError), for outputs without attributes (AttributeError) and when a block did not finish (KeyError).

* `C212_partial`: **C212** (part): when every evaluated block finished, the Markdown of a run whose output is shown by `out` says the name of the run, that of the workflow and `out`, and has a table which is read as the titles and one line for each evaluated block, each of them once, with the memory before and after its last evaluation and their …
* `C212_unfinished_violated`: The execution information of a workflow of which one block raised an error, and was not evaluated again, has no Markdown: KeyError.
* `C212_state_violated`: A state of a workflow has no Markdown, whatever was evaluated: TypeError.
* `C212_plain_violated`: A run whose output is a number, a string, a dictionary or None has no Markdown: AttributeError.

## Axioms of each property theorem

From `#print axioms` on each theorem of MANIFEST.json.

* no axiom (5): C41_sum_violated, C41_sum_empty, C58_no_limit, C158_failed, C163_delete

* propext (66): C20_content, C22_collision_violated, C23_unknown_level, C24_info_violated, C34_raises, C34_inputs_raises, C45_slice_raises, C45_order_violated, C45_empty_violated, C54_other, C58_one_violated, C59_check_violated, C60_roundtrip, C60_missing, C60_equality, C63_words, C63_identity, C80_violated, C85_violated, C85_partial, C87_violated, C91_violated, C91_correlated_violated, C98_merge, C101_partial, C101_violated, C102_static_violated, C102_keyword_violated, C123_model, C129_objects_violated, C135_twice_violated, C136_violated, C139_lookup_violated, C157_copy, C157_binary, C157_text_partial, C157_text_violated, C157_stream_partial, C157_kind_violated, C157_position_violated, C157_eq, C163_no_tables, C163_picture, C163_picture_violated, C165_raises, C170_no_pipe_partial, C170_never_false_violated, C170_raises_violated, C170_value_partial, C170_none, C170_generic_violated, C182_again_violated, C182_mask, C182_masks_partial, C194_unpacker, C194_fixed, C194_export, C195_arguments, C201_generate, C210_history, C210_named, C210_again, C210_text_partial, C210_text_violated, C210_limit_partial, C210_limit_violated

* Quot.sound, propext (105): C17_any, C17_list, C17_dict, C17_tuple, C17_class, C20_split, C21_partial, C21_merge_partial, C21_static_violated, C21_keyword_violated, C22_shape_partial, C22_idempotent, C22_string_keys, C23_distributes, C34_order, C35_free_violated, C38_violated, C38_partial, C40_no_output, C41_missing, C41_workflow, C42_block, C42_inputs, C44_labels_partial, C45_nothing, C45_int, C46_empty, C46_unreadable, C46_lacking, C47_common, C47_init, C47_read, C49_inf, C50_raises, C56_extension, C56_partial, C58_fits_partial, C58_beyond_partial, C58_duplicated_violated, C58_odd_violated, C59_duplicates, C60_compose, C61_bounded, C61_fixed, C63_characters, C63_no_underscore, C72_shallow_copy_missing, C78_removed, C82_defined, C87_partial, C88_violated, C89_single_violated, C93_violated, C96_empty, C111_explicit_violated, C118_rename, C119_runs, C123_copy_evaluates, C123_outputs, C123_archive, C126_duplicates_partial, C126_refused, C129_all_values, C135_all, C135_unknown, C135_violated, C135_read_violated, C136_zip, C138_violated, C138_state_violated, C142_level_violated, C144_sound, C145_partial, C151_none, C154_partial, C154_untyped, C154_violated, C155_renamed_violated, C157_missing, C158_partial, C158_file, C158_emptied_violated, C162_labels_violated, C163_table_partial, C163_call, C163_calls, C165_complete_partial, C165_missed_violated, C165_ancestors_violated, C170_exact_partial, C184_ties, C189_parts, C194_numbers, C194_archive, C194_untouched, C194_forEach_partial, C196_covariance_reorder, C199_rename, C199_document, C199_insert, C200_violated, C205_output, C206_missing, C207_told_partial, C211_names

* Classical.choice, Quot.sound, propext (818): C01_dataEq_refl, C01_obj_eq_refl, C02_symmetric_violated, C02_eq_symmetric_violated, C02_both_directions_iff_same_partial, C02_symmetric_partial, C03_eq_imp_hash, C03_same_data_same_hash, C03_hash_insertion_order, C03_hash_attribute_order, C03_hash_list_tuple, C04_eq_iff_dataEq_violated, C04_same_data_eq_partial, C05_diff_self_empty, C06_empty_diff_imp_dataEq, C07_missing_both_sides_violated, C07_missing_longer_partial, C07_missing_exact_partial, C08_copy_kind_violated, C08_copy_data_violated, C08_copy_exact_partial, C08_copy_dataEq_partial, C08_copy_dataEq_shared_partial, C08_copy_identity_partial, C09_index, C09_out, C09_root_violated, C09_pointer_violated, C09_get_after_set_partial, C09_set_succeeds, C10_alias_violated, C10_elsewhere_partial, C11_files_violated, C11_json_partial, C11_json_or_files, C11_idempotent, C12_string_violated, C12_dict_violated, C12_roundtrip_partial, C12_exact_partial, C13_failures_partial, C13_partial, C13_names_violated, C13_measures_violated, C13_intKeys_violated, C13_slash_violated, C13_list_violated, C13_extra_violated, C14_order, C14_renamed_available, C14_cycle_rejected, C14_acyclic_accepted, C15_loop_violated, C15_ends_partial, C15_ends_iff, C16_partial, C16_tuple_violated, C16_variadic_violated, C16_optional_violated, C17_refl, C18_exact, C18_mono, C19_partial, C19_union, C19_nested_violated, C19_optional_violated, C19_iterator_violated, C19_view_violated, C19_literal_violated, C19_none_violated, C23_above_exact, C23_shrinks, C23_raises_iff, C23_truth, C24_failed_iff, C24_info_partial, C24_quiet, C25_and, C25_or, C25_xor_is_or, C25_xor_partial, C25_xor_violated, C25_empty_and_violated, C25_unknown_logical, C25_unknown_comparison, C25_unknown_error, C25_total, C26_sublist, C26_idempotent, C26_length, C26_indexes, C27_once, C27_needed, C27_order, C27_completes, C28_values, C28_agree, C28_run, C28_result, C29_ends, C29_run, C29_fuel, C29_acyclic, C30_missing, C30_result, C31_run, C31_state_violated, C32_bounds, C32_complete, C32_monotone, C32_increases, C33_init, C33_step, C33_partial, C33_spare_violated, C33_change, C33_remove, C33_reset, C33_find, C34_rejects, C34_steps_partial, C34_accepts, C34_violated, C34_inputs, C34_inputs_partial, C34_inputs_violated, C35_roundtrip, C35_injective, C35_unknown, C36_partial, C36_runs, C36_locked_violated, C36_type_violated, C36_detached_violated, C36_renamed_violated, C36_free_violated, C36_step_violated, C36_raises_violated, C37_partial, C37_equal_partial, C37_runs, C37_default_violated, C37_label_violated, C37_texts_violated, C37_detached_violated, C37_shared_violated, C37_group_violated, C37_free_violated, C37_lock_violated, C37_hash_violated, C39_mix, C39_share, C40_runtime, C41_sequence, C41_concatenate, C41_concatenate_raises, C41_flatten, C41_flatten_raises, C41_product, C41_unpacker, C41_substraction, C41_strings, C41_strings_raises, C41_foreach, C42_incoming, C42_outgoing, C42_between, C43_exact, C43_pareto, C43_real, C43_costs, C44_labels_violated, C44_partition, C44_rank, C45_slice, C45_slice_simple, C45_slice_reverse, C45_booleans, C45_filtering, C45_indexes, C45_indexes_partial, C46_sort, C46_readable, C47_matrix, C47_getitem, C47_sum_partial, C47_sum_violated, C47_rows_violated, C48_content, C48_labels_partial, C48_names_partial, C48_default, C48_labels_violated, C48_names_violated, C49_manhattan, C49_length_violated, C49_inf_norm, C49_euclidian, C50_mean, C50_symm, C50_variance, C50_translation, C50_bound, C51_grid, C51_distinct, C51_bounds, C51_single_violated, C51_names_violated, C51_empty, C52_inverse, C52_range, C52_bounds, C52_raises, C52_random, C52_bounded, C53_partial, C53_raises, C53_extrapolates, C53_outside, C53_decreasing_violated, C53_duplicate_violated, C54_pairs, C54_triples, C54_incomplete, C55_merge, C55_breakdown, C55_numbers, C55_empty_key_violated, C56_violated, C56_json, C57_grouped, C57_as_is_partial, C57_as_is_violated, C59_missing, C59_values, C61_only, C61_vector, C61_best, C62_step, C64_classes_distinguished_violated, C64_class_vs_value_partial, C65_eq_total_violated, C65_eq_total_partial, C66_transitive_violated, C66_transitive_partial, C67_dataEq_imp_empty_diff_violated, C67_same_imp_empty_diff_partial, C67_objects_partial, C68_value_order_violated, C68_entries_located_partial, C68_value_order_partial, C69_different_is_real, C70_diff_total_violated, C70_diff_total_partial, C70_raises, C71_copy_names_violated, C71_copy_names_partial, C72_shallow_copy, C73_serialize_ok_iff, C74_platform_bson, C74_hidden, C75_violated, C75_partial, C76_partial, C76_violated, C77_next, C77_ends_partial, C77_violated, C78_display, C78_stays_violated, C79_partial, C79_violated, C80_archive, C80_partial, C81_partial, C81_symmetric, C81_apart, C81_optimizer, C81_violated, C82_parameters, C82_means, C83_partial, C83_iff, C83_violated, C84_cells, C84_partial, C84_violated, C86_selector, C88_partial, C89_partial, C89_violated, C90_within, C90_doe, C90_names_violated, C91_axes, C91_partial, C92_partial, C92_violated, C93_partial, C94_partial, C94_first, C94_violated, C94_last_violated, C95_width, C95_short, C95_long, C95_partial, C95_titles_violated, C96_rows, C97_minkowski, C97_orders, C97_order_zero, C97_length_violated, C97_triangle_violated, C98_partial, C98_violated, C99_partial, C99_violated, C100_partial, C100_violated, C100_raises_violated, C102_partial, C103_steps, C103_partial, C103_class_violated, C103_locked_violated, C103_blocks_violated, C104_step_violated, C104_symmetric_violated, C104_partial, C105_partial, C105_tuple_violated, C105_slash_violated, C106_partial, C106_slash_violated, C106_key_violated, C107_values, C107_result, C107_restored, C107_workflow, C107_pipe, C107_partial, C107_violated, C107_file_violated, C108_leading_violated, C108_selector_violated, C108_evaluated_violated, C108_display_partial, C108_export_partial, C109_branch, C109_no_output, C109_once_violated, C110_inputs, C110_enough, C111_generated, C112_run_partial, C112_kept, C112_after_partial, C112_secondary_violated, C112_unwired_violated, C113_partial, C113_measure_violated, C113_unread_violated, C113_class_violated, C113_union_violated, C113_sequence, C113_variadic_violated, C113_file, C114_partial, C114_union_partial, C114_union_read, C114_union_violated, C114_union_measure_violated, C114_unchecked_violated, C114_object_partial, C114_class_violated, C115_values, C115_missing, C115_key_error, C115_locked, C115_name, C115_method, C115_run, C115_call, C116_positions_partial, C116_call_partial, C116_names_violated, C116_annotation_violated, C117_form, C117_history_partial, C117_violated, C118_runnable_partial, C118_lock, C118_default, C118_reset, C118_locked_violated, C119_same_run, C119_partial, C119_documentation_violated, C119_default_violated, C119_lock_violated, C119_free_violated, C119_steps_violated, C119_quote_violated, C119_class_violated, C120_read_write_partial, C120_export_violated, C120_display_violated, C121_equivalent_partial, C121_class_violated, C121_module_violated, C121_filter_violated, C121_export_violated, C121_selector_violated, C121_view_violated, C121_hash_partial, C121_hash_violated, C122_script_partial, C122_filter_violated, C122_attribute_violated, C122_position_violated, C122_multiplot_violated, C122_display_violated, C122_scatter_violated, C122_parallel_violated, C122_export_violated, C122_copy_violated, C122_name_violated, C123_copy_equivalent_partial, C123_lock_violated, C123_selector_violated, C123_filter_violated, C124_tabular_partial, C124_flat_partial, C124_same_class_violated, C124_lists_violated, C124_dict_violated, C124_text_violated, C124_round_violated, C124_rows_violated, C124_nested_violated, C124_named_violated, C125_sheets, C125_links, C125_paths, C126_rows, C126_duplicates_violated, C127_partial, C127_run_partial, C127_default_violated, C127_shared_violated, C128_equal, C128_copy, C128_values, C128_file_violated, C128_restored_violated, C129_partial, C129_plain_partial, C129_object_text, C129_locked_violated, C129_text_violated, C129_nested_violated, C130_property_partial, C130_valid_violated, C130_raises_violated, C130_default_violated, C130_inner_violated, C131_partial, C131_annotated, C131_form_partial, C131_editable_violated, C131_editable, C131_optional_union_violated, C131_optional_literal_violated, C131_class_default_violated, C131_content_partial, C131_reference_partial, C131_widget_partial, C131_items, C132_partial, C132_declared_partial, C132_references_partial, C132_typing_violated, C132_undefined_violated, C132_optional_violated, C132_mutable_violated, C132_measure_violated, C133_class_partial, C133_class_violated, C133_partial, C133_unknown_violated, C133_blank_violated, C133_mark_violated, C133_check_violated, C133_check_partial, C134_partial, C134_returns, C134_source, C134_violated, C135_settings, C135_partial, C135_picture_violated, C135_tree_violated, C136_formats, C136_save, C136_unknown, C136_partial, C136_read, C136_taken_violated, C136_docx_violated, C136_stream_violated, C137_partial, C137_valid, C137_raises, C137_computed, C137_violated, C137_info_violated, C138_settings, C138_partial, C138_documentation, C138_all_partial, C138_documentation_violated, C139_formats, C139_partial, C139_file_violated, C139_taken_violated, C140_partial, C140_file_violated, C140_keys_violated, C140_name_violated, C140_stream_violated, C141_violated, C141_partial, C142_partial, C142_dashes_violated, C142_hashes_violated, C142_cells_violated, C142_table_violated, C142_name, C143_regular, C144_decision, C144_initial, C145_violated, C145_decision_violated, C146_partial, C146_label_violated, C146_long_violated, C146_other_violated, C147_partial, C147_raises_violated, C147_measure_violated, C147_class_violated, C148_mean, C148_variances, C148_covariance_partial, C148_variances_violated, C148_single_violated, C149_partial, C149_outliers_violated, C149_empty_violated, C149_distances, C149_weighted, C150_settings, C150_partial, C150_spare_violated, C151_partial, C151_steps, C151_input_violated, C152_partial, C152_last, C152_violated, C152_bounds, C153_same, C153_document_violated, C153_partial, C153_violated, C155_class_partial, C155_instantiate_partial, C155_method_partial, C155_callback_partial, C155_twice_violated, C155_keyword_violated, C155_callback_violated, C155_display_partial, C156_partial, C156_two_partial, C156_single_violated, C156_best_violated, C156_dominated_violated, C158_violated, C159_values, C159_missing, C159_result_partial, C159_locked_violated, C160_labels, C160_scaled, C160_empty, C160_each, C160_units, C160_list, C161_distances, C161_default, C161_empty, C161_singular_partial, C161_singular_violated, C161_points, C162_samples, C162_matrix, C162_tooltip, C162_attributes, C162_parallel, C162_families_partial, C163_table_violated, C163_table_raises, C163_levels, C163_left_violated, C163_layout, C163_alignment, C164_cut, C164_acyclic, C164_tree, C165_sound, C166_gradient, C166_cma, C166_both, C166_errors, C166_fixed_violated, C166_twice_violated, C166_start_partial, C166_start_violated, C167_metric, C167_separates, C167_units_partial, C167_data, C167_units_violated, C168_numbers, C168_succeeds_partial, C168_succeeds_violated, C169_offered, C169_form_partial, C169_step, C169_default_partial, C169_others_violated, C169_arguments_violated, C171_partial, C171_dataset_partial, C171_unprinted, C171_bool_violated, C171_complex_violated, C171_bar_violated, C171_contents, C171_contents_violated, C172_partial, C172_builtin_violated, C172_tuple_violated, C172_variadic_violated, C172_union_violated, C172_dict_violated, C172_names, C172_dict_one, C172_old_builtins, C173_partial, C173_sub_violated, C173_free_violated, C173_unknown_violated, C174_part, C174_inputs, C174_extra, C175_order, C175_given, C176_lock, C176_default, C177_concat, C177_objects, C177_filters, C177_chain, C177_opposite, C178_front, C178_order, C178_again, C178_more, C178_units, C179_save, C179_rounds, C179_copy, C180_exact, C180_vector_partial, C180_place, C180_case_violated, C180_missing_violated, C180_order_violated, C181_print, C181_list_partial, C181_equal, C181_width, C181_aligned, C181_truncated_violated, C181_empty_violated, C181_alias_violated, C182_split, C182_add, C182_reverse, C182_again_partial, C183_read_steps, C183_read_steps_violated, C183_write_twice, C183_write_back_partial, C183_write_back_violated, C183_write_order_partial, C183_write_order_violated, C184_order, C184_descending, C184_again, C185_save, C185_load, C185_equal, C186_unfold, C186_fold, C187_cut, C187_replace, C188_renamed, C189_runs, C189_fusion, C189_chain, C190_exact_partial, C190_partial, C190_bool_violated, C190_any_violated, C190_tuple_violated, C190_order_violated, C191_partial, C191_object_violated, C192_reorder_partial, C192_sort_partial, C192_order_violated, C192_sum_partial, C193_partial, C193_missing_violated, C193_longer_violated, C193_types_violated, C193_objects_violated, C194_forEach_violated, C194_forEach_names, C194_names_partial, C194_names_violated, C195_base, C195_method, C195_attribute, C195_filter, C195_plots, C196_manhattan, C196_euclidian, C196_minkowski, C196_compare, C196_orders, C196_covariance_scale, C196_covariance_sum, C197_equal, C197_hidden, C197_hash, C197_hash_name, C197_sequence, C198_total, C198_again, C198_partial, C198_violated, C198_shallow, C199_move, C199_refused_violated, C199_refused_partial, C199_free, C199_undo, C200_partial, C200_dataset, C201_partial, C201_tail, C201_violated, C201_duplicates_violated, C201_power, C201_progress, C202_generate, C202_refused, C202_reference, C202_places, C203_parts, C203_joins, C203_best, C203_single, C204_pointers, C204_links, C204_nodes, C204_document, C204_shape_violated, C204_leaves_violated, C205_given, C206_readable, C206_imposed, C206_runs, C207_told_violated, C207_names, C207_read_partial, C207_read_violated, C207_unnamed, C208_goes_on, C208_runs, C208_apart, C209_completes, C209_give, C209_rest, C209_run, C209_ends, C210_stays, C211_now, C211_again_violated, C212_partial, C212_unfinished_violated, C212_state_violated, C212_plain_violated

