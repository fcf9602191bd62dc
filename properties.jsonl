{"id": "C01", "title": "Data equality is reflexive", "statement": "For every value made of None, booleans, numbers, strings, lists, tuples, dictionaries and DessiaObjects, data_eq(value, value) is True; hence an object is always == to itself.", "quantifier": "all finite values of any nesting depth", "why_tests_cant": "The claim ranges over values of unbounded depth and size; a test only fixes finitely many of them.", "anchors": [{"file": "dessia_common/core.py", "symbols": ["data_eq", "dict_data_eq", "sequence_data_eq", "DessiaObject.__eq__"]}]}
{"id": "C02", "title": "Data equality is symmetric", "statement": "data_eq(a, b) and data_eq(b, a) always return the same boolean, and so do a == b and b == a for objects.", "quantifier": "all pairs of values", "why_tests_cant": "The claim ranges over values of unbounded depth and size; a test only fixes finitely many of them.", "anchors": [{"file": "dessia_common/core.py", "symbols": ["data_eq", "dict_data_eq", "DessiaObject.__eq__"]}]}
{"id": "C03", "title": "Equal objects have equal hashes and hashes ignore insertion order", "statement": "Whenever a == b for two DessiaObjects then hash(a) == hash(b); moreover the hash of a value does not depend on the insertion order of its dictionaries nor on whether a sequence is a list or a tuple.", "quantifier": "all pairs of objects, all permutations of dictionary entries", "why_tests_cant": "The claim ranges over values of unbounded depth and size; a test only fixes finitely many of them.", "anchors": [{"file": "dessia_common/core.py", "symbols": ["DessiaObject.__hash__", "DessiaObject._data_hash"]}, {"file": "dessia_common/utils/diff.py", "symbols": ["choose_hash", "sequence_hash", "dict_hash"]}]}
{"id": "C04", "title": "== on objects coincides with data equality", "statement": "Two DessiaObjects of the same class whose data is equal in the sense of data_eq compare equal with ==.", "quantifier": "all pairs of objects of a class", "why_tests_cant": "The claim ranges over values of unbounded depth and size; a test only fixes finitely many of them.", "anchors": [{"file": "dessia_common/core.py", "symbols": ["DessiaObject.__eq__", "data_eq"]}, {"file": "dessia_common/utils/diff.py", "symbols": ["choose_hash"]}]}
{"id": "C05", "title": "The diff of a value with itself is empty", "statement": "diff(value, value).is_empty() for every value.", "quantifier": "all finite values", "why_tests_cant": "The claim ranges over values of unbounded depth and size; a test only fixes finitely many of them.", "anchors": [{"file": "dessia_common/utils/diff.py", "symbols": ["diff", "dict_diff", "sequence_diff", "Diff.is_empty"]}]}
{"id": "C06", "title": "An empty diff means equal data", "statement": "If diff(a, b).is_empty() then data_eq(a, b); a difference of data is never silently dropped.", "quantifier": "all pairs of values", "why_tests_cant": "The claim ranges over values of unbounded depth and size; a test only fixes finitely many of them.", "anchors": [{"file": "dessia_common/utils/diff.py", "symbols": ["diff", "dict_diff", "sequence_diff"]}, {"file": "dessia_common/core.py", "symbols": ["data_eq"]}]}
{"id": "C07", "title": "The diff of two dictionaries reports every missing key, on both sides", "statement": "For dictionaries a and b, diff(a, b) holds a 'missing in second object' entry for every key of a absent from b and a 'missing in first object' entry for every key of b absent from a, and no other missing entry at that level.", "quantifier": "all pairs of dictionaries", "why_tests_cant": "The claim ranges over values of unbounded depth and size; a test only fixes finitely many of them.", "anchors": [{"file": "dessia_common/utils/diff.py", "symbols": ["dict_diff"]}]}
{"id": "C08", "title": "A deep copy is data-equal to the original and keeps its structure", "statement": "copy() of an object returns an object for which data_eq holds with the original, whose containers are of the same kinds as those of the original.", "quantifier": "all copyable values, all memo contents", "why_tests_cant": "The claim ranges over values of unbounded depth and size; a test only fixes finitely many of them.", "anchors": [{"file": "dessia_common/utils/copy.py", "symbols": ["deepcopy_value", "deepcopy_dict", "deepcopy_sequence", "search_memo"]}, {"file": "dessia_common/core.py", "symbols": ["DessiaObject.__deepcopy__"]}]}
{"id": "C09", "title": "Reading back a path that has just been written returns the written value", "statement": "After set_in_object_from_path(o, path, v) succeeds, get_in_object_from_path(o, path) returns v.", "quantifier": "all objects, all paths on which the write succeeds, all values", "why_tests_cant": "The claim ranges over values of unbounded depth and size; a test only fixes finitely many of them.", "anchors": [{"file": "dessia_common/utils/helpers.py", "symbols": ["get_in_object_from_path", "set_in_object_from_path", "extract_segment_from_object"]}]}
{"id": "C10", "title": "Writing a path changes nothing elsewhere", "statement": "After set_in_object_from_path(o, path, v), reading any path that is neither a prefix nor an extension of the written one gives the same result as before.", "quantifier": "all objects, all pairs of diverging paths", "why_tests_cant": "The claim ranges over values of unbounded depth and size; a test only fixes finitely many of them.", "anchors": [{"file": "dessia_common/utils/helpers.py", "symbols": ["get_in_object_from_path", "set_in_object_from_path"]}]}
{"id": "C11", "title": "Pointer-free serialization only outputs JSON data and is idempotent", "statement": "If serialize(v) succeeds, its result contains only null, booleans, numbers, strings, arrays and objects, and serialize(serialize(v)) == serialize(v).", "quantifier": "all values", "why_tests_cant": "The claim ranges over values of unbounded depth and size; a test only fixes finitely many of them.", "anchors": [{"file": "dessia_common/serialization.py", "symbols": ["serialize", "serialize_dict", "serialize_sequence", "SerializableObject.to_dict"]}]}
{"id": "C12", "title": "Serialize then deserialize returns an equal object", "statement": "dict_to_object(o.to_dict(use_pointers=False)) is an object of the same class for which data_eq holds with o, for classes whose attributes are their constructor arguments.", "quantifier": "all objects of all such classes, nested at any depth", "why_tests_cant": "The claim ranges over values of unbounded depth and size; a test only fixes finitely many of them.", "anchors": [{"file": "dessia_common/serialization.py", "symbols": ["serialize", "dict_to_object", "deserialize", "deserialize_sequence"]}]}
{"id": "C13", "title": "Pointer serialization loses nothing", "statement": "Expanding every {'$ref': '#/_references/<id>'} of o.to_dict(use_pointers=True) by the stored reference gives the pointer-free serialization of o; every pointer emitted resolves.", "quantifier": "all object trees with any amount of sharing", "why_tests_cant": "The claim ranges over values of unbounded depth and size; a test only fixes finitely many of them.", "anchors": [{"file": "dessia_common/serialization.py", "symbols": ["serialize_with_pointers", "serialize_dict_with_pointers", "serialize_sequence_with_pointers", "add_references", "_find_in_memo", "_serialize_and_set_in_memo"]}]}
{"id": "C14", "title": "Pointers are resolved before their users", "statement": "In the order in which a dict's pointers are dereferenced, an element is handled only after every element it points to or contains in the pointer graph; a cyclic pointer graph is rejected instead of looping.", "quantifier": "all dicts with pointers", "why_tests_cant": "Ranges over all graphs; a finite test set cannot cover all topologies.", "anchors": [{"file": "dessia_common/serialization.py", "symbols": ["deserialization_order", "dereference_jsonpointers", "pointer_graph"]}, {"file": "dessia_common/graph.py", "symbols": ["explore_tree_from_leaves", "cut_tree_final_branches"]}]}
{"id": "C15", "title": "Analysing pointers terminates", "statement": "Building the pointer graph of any dict terminates, whatever reference strings it contains.", "quantifier": "all dicts, all reference strings", "why_tests_cant": "Termination over all inputs is not observable by finitely many runs.", "anchors": [{"file": "dessia_common/serialization.py", "symbols": ["pointer_graph", "find_references"]}]}
{"id": "C16", "title": "typematch is sound for values", "statement": "If typematch(T, U) returns True then every value of type T is a value of type U (an int counting as a float), so that plugging variables of compatible types never feeds a wrongly typed value.", "quantifier": "all types of any nesting, all values", "why_tests_cant": "The claim ranges over values of unbounded depth and size; a test only fixes finitely many of them.", "anchors": [{"file": "dessia_common/utils/types.py", "symbols": ["typematch", "complex_first_type_match", "heal_type", "particular_typematches"]}]}
{"id": "C17", "title": "typematch is reflexive, accepts Any and is covariant", "statement": "typematch(T, T) and typematch(T, Any) are True for all T; typematch(List[T], List[U]) equals typematch(T, U), likewise for Dict.", "quantifier": "all types", "why_tests_cant": "The claim ranges over values of unbounded depth and size; a test only fixes finitely many of them.", "anchors": [{"file": "dessia_common/utils/types.py", "symbols": ["typematch", "complex_first_type_match"]}]}
{"id": "C18", "title": "BSON validation accepts exactly the storable values", "statement": "is_bson_valid(v) is True iff v contains only None, bool, int, float, str, sequences and dicts whose keys are strings without '.', (or ints when non string keys are allowed), at every depth.", "quantifier": "all values", "why_tests_cant": "The claim ranges over values of unbounded depth and size; a test only fixes finitely many of them.", "anchors": [{"file": "dessia_common/utils/types.py", "symbols": ["is_bson_valid"]}]}
{"id": "C19", "title": "Annotation strings round trip", "statement": "For every annotation T built from builtins, classes, List, Tuple, Dict, Union, Type..., deserialize_annotation(serialize_annotation(T)) is T again.", "quantifier": "all annotations of any nesting", "why_tests_cant": "The claim ranges over values of unbounded depth and size; a test only fixes finitely many of them.", "anchors": [{"file": "dessia_common/schemas/core.py", "symbols": ["serialize_annotation", "deserialize_annotation", "extract_args", "TypingProperty", "HeterogeneousSequence", "HomogeneousSequence"]}]}
{"id": "C20", "title": "Typing arguments are split exactly at top level commas", "statement": "extract_args applied to the comma separated join of non-empty well bracketed arguments returns these arguments, in order; on any string it loses nothing but spaces and a last comma.", "quantifier": "all lists of bracket-balanced strings", "why_tests_cant": "The claim ranges over values of unbounded depth and size; a test only fixes finitely many of them.", "anchors": [{"file": "dessia_common/schemas/core.py", "symbols": ["extract_args"]}]}
{"id": "C21", "title": "Default arguments are attributed to the right parameters", "statement": "For any signature, split_default_args gives each parameter having a default exactly the default Python would use, and no entry to the others.", "quantifier": "all signatures (any number of parameters and defaults)", "why_tests_cant": "The claim ranges over values of unbounded depth and size; a test only fixes finitely many of them.", "anchors": [{"file": "dessia_common/schemas/core.py", "symbols": ["split_default_args", "split_argspecs"]}]}
{"id": "C22", "title": "Stringifying dictionary keys keeps all the entries", "statement": "stringify_dict_keys returns a value of the same shape with only string keys and as many entries in each dictionary; it is idempotent.", "quantifier": "all values", "why_tests_cant": "The claim ranges over values of unbounded depth and size; a test only fixes finitely many of them.", "anchors": [{"file": "dessia_common/core.py", "symbols": ["stringify_dict_keys"]}]}
{"id": "C23", "title": "Check levels filter and raise consistently", "statement": "checks_above_level(l) returns, in order, exactly the checks of level at least l; it shrinks as the level rises, distributes over +, and raise_if_above_level raises iff it is not empty.", "quantifier": "all check lists and levels", "why_tests_cant": "The claim ranges over values of unbounded depth and size; a test only fixes finitely many of them.", "anchors": [{"file": "dessia_common/checks.py", "symbols": ["CheckList", "LEVEL_TO_INT"]}]}
{"id": "C24", "title": "type_check honours the requested level", "statement": "With level 'info', type_check reports a passed check for every value of the expected type; with any level it reports a failed check iff the value is not of the expected type.", "quantifier": "all values, types and levels", "why_tests_cant": "The claim ranges over values of unbounded depth and size; a test only fixes finitely many of them.", "anchors": [{"file": "dessia_common/checks.py", "symbols": ["type_check", "is_int", "is_float", "is_str"]}]}
{"id": "C25", "title": "Filter lists select by the announced logic", "statement": "FiltersList.apply keeps exactly the objects which satisfy all ('and'), at least one ('or') or an exclusive-or ('xor') combination of the filters, and raises for any other operator.", "quantifier": "all lists of objects, all lists of filters", "why_tests_cant": "The claim ranges over values of unbounded depth and size; a test only fixes finitely many of them.", "anchors": [{"file": "dessia_common/core.py", "symbols": ["FiltersList.combine_booleans_lists", "FiltersList.get_booleans_index", "FiltersList.apply", "DessiaFilter"]}]}
{"id": "C26", "title": "Filtering keeps order and multiplicity", "statement": "The result of applying a filter is a subsequence of the input; filtering twice with the same filter changes nothing; the boolean index has the length of the input; index list and boolean list describe the same selection.", "quantifier": "all lists, all filters", "why_tests_cant": "The claim ranges over values of unbounded depth and size; a test only fixes finitely many of them.", "anchors": [{"file": "dessia_common/core.py", "symbols": ["DessiaFilter.apply", "DessiaFilter.get_booleans_index", "DessiaFilter.booleanlist_to_indexlist"]}]}
{"id": "C27", "title": "A workflow run evaluates every needed block exactly once, after its inputs", "statement": "During a run with a value for every input and blocks that do not raise, every block that leads to the output is evaluated exactly once, after all the blocks that feed it, no other block is evaluated, and the run succeeds.", "quantifier": "all acyclic workflows whose pipes go from block outputs or free variables to block inputs, all input values, all orders of the sets of blocks", "why_tests_cant": "The number of graphs and schedules is unbounded.", "anchors": [{"file": "dessia_common/workflow/core.py", "symbols": ["WorkflowState.continue_run", "WorkflowState._activable_blocks", "WorkflowState._evaluate_block", "Workflow.run"]}]}
{"id": "C28", "title": "The result of a workflow does not depend on scheduling", "statement": "Whatever the order in which activable blocks are evaluated (declaration order, one by one, by branches), all pipes and the output end with the same values.", "quantifier": "all workflows with functional blocks, all schedules", "why_tests_cant": "Unbounded number of interleavings.", "anchors": [{"file": "dessia_common/workflow/core.py", "symbols": ["WorkflowState.continue_run", "WorkflowState.evaluate_next_block", "WorkflowState.evaluate_branch", "WorkflowState.block_evaluation"]}]}
{"id": "C29", "title": "Running always terminates", "statement": "continue_run stops for every workflow state: each round evaluates at least one new block or ends.", "quantifier": "all workflow states", "why_tests_cant": "Termination cannot be tested.", "anchors": [{"file": "dessia_common/workflow/core.py", "symbols": ["WorkflowState.continue_run"]}]}
{"id": "C30", "title": "A run never starts with a missing required input", "statement": "If a required (default-less) input has no value, then run raises before evaluating the output; to_workflow_run succeeds only when every runtime block has been evaluated.", "quantifier": "all workflows and partial inputs", "why_tests_cant": "The claim ranges over values of unbounded depth and size; a test only fixes finitely many of them.", "anchors": [{"file": "dessia_common/workflow/core.py", "symbols": ["Workflow.run", "WorkflowState.to_workflow_run", "WorkflowState.activate_inputs"]}]}
{"id": "C31", "title": "A locked input always keeps its default value", "statement": "Whatever values the user gives, a locked input is run with its default value; for an unlocked input the user's value wins over the default.", "quantifier": "all workflows, all user input dictionaries", "why_tests_cant": "The claim ranges over values of unbounded depth and size; a test only fixes finitely many of them.", "anchors": [{"file": "dessia_common/workflow/core.py", "symbols": ["Workflow.run", "Workflow.input_values", "Variable.lock", "Variable.locked"]}]}
{"id": "C32", "title": "Progress is a monotone fraction that reaches one exactly at completion", "statement": "progress lies in [0, 1], never decreases while blocks are evaluated, and equals 1 iff every runtime block has been evaluated.", "quantifier": "all workflows, all evaluation histories", "why_tests_cant": "All histories.", "anchors": [{"file": "dessia_common/workflow/core.py", "symbols": ["WorkflowState.progress"]}]}
{"id": "C33", "title": "Each input is in exactly one step or spare", "statement": "After any sequence of step editions (insert, remove, rename, reorder, change_input_step, remove_input_from_step, reset), every non-locked workflow input is in exactly one step or in the spare inputs, exactly once.", "quantifier": "all histories of step editions", "why_tests_cant": "All finite histories of operations.", "anchors": [{"file": "dessia_common/workflow/core.py", "symbols": ["Workflow.change_input_step", "Workflow.remove_input_from_step", "Workflow.insert_step", "Workflow.remove_step", "Workflow.reset_steps", "Workflow.find_input_step"]}]}
{"id": "C34", "title": "Reordering steps or step inputs only permutes them", "statement": "reorder_steps(order) leaves exactly the same steps in the requested order, or raises and changes nothing; reorder_step_inputs likewise.", "quantifier": "all step lists, all order lists", "why_tests_cant": "The claim ranges over values of unbounded depth and size; a test only fixes finitely many of them.", "anchors": [{"file": "dessia_common/workflow/core.py", "symbols": ["Workflow.reorder_steps", "Workflow.reorder_step_inputs"]}]}
{"id": "C35", "title": "Variables are addressed consistently", "statement": "variable_from_index(variable_indices(v)) is v for every variable of the workflow, and distinct variables have distinct indices.", "quantifier": "all workflows", "why_tests_cant": "The claim ranges over values of unbounded depth and size; a test only fixes finitely many of them.", "anchors": [{"file": "dessia_common/workflow/core.py", "symbols": ["Workflow.variable_indices", "Workflow.variable_from_index", "Workflow.match_variables"]}]}
{"id": "C36", "title": "A workflow survives serialization", "statement": "dict_to_object(workflow.to_dict()) has equivalent blocks, pipes linking the same block ports, the same output, steps and defaults.", "quantifier": "all workflows", "why_tests_cant": "The claim ranges over values of unbounded depth and size; a test only fixes finitely many of them.", "anchors": [{"file": "dessia_common/workflow/core.py", "symbols": ["Workflow.to_dict", "Workflow.dict_to_object", "deserialize_pipes", "initialize_workflow"]}]}
{"id": "C37", "title": "A copied workflow is equal to, and independent of, the original", "statement": "copy() of a workflow is data-equal to it, pipes link the copied blocks' ports at the same indices, and none of its blocks or variables belong to the original.", "quantifier": "all workflows", "why_tests_cant": "The claim ranges over values of unbounded depth and size; a test only fixes finitely many of them.", "anchors": [{"file": "dessia_common/workflow/core.py", "symbols": ["Workflow.__deepcopy__", "Workflow.copy_pipe", "Workflow.copy_pipes", "Workflow.copy_step"]}]}
{"id": "C38", "title": "The default argument dictionary of run can be built", "statement": "method_dict('run') of a workflow returns, for every input with a default value, that value under the input's index.", "quantifier": "all workflows with any set of defaults", "why_tests_cant": "The claim ranges over values of unbounded depth and size; a test only fixes finitely many of them.", "anchors": [{"file": "dessia_common/workflow/core.py", "symbols": ["Workflow._run_dict", "Workflow.method_dict", "Workflow.default_values"]}]}
{"id": "C39", "title": "The package mix is a distribution", "statement": "package_mix of a non empty workflow with at least one package-typed block sums to 1, every share being positive.", "quantifier": "all workflows", "why_tests_cant": "The claim ranges over values of unbounded depth and size; a test only fixes finitely many of them.", "anchors": [{"file": "dessia_common/workflow/core.py", "symbols": ["Workflow.package_mix"]}]}
{"id": "C40", "title": "The runtime blocks are those leading to the output", "statement": "A block is a runtime block iff it is the block of the output, or feeds through a pipe a block which is a runtime block.", "quantifier": "all workflow graphs", "why_tests_cant": "All graphs.", "anchors": [{"file": "dessia_common/workflow/core.py", "symbols": ["Workflow.runtime_blocks", "Workflow.secondary_branch_blocks", "Workflow.is_block_secondary", "Workflow._branch_blocks"]}]}
{"id": "C41", "title": "Data-flow blocks compute what they announce", "statement": "Sequence returns its inputs in port order; Flatten the concatenation; Product all the combinations, once each; Unpacker the requested elements; Concatenate the concatenation in port order; ConcatenateStrings the joined string; Substraction the difference; Sum the sum; ForEach applies its workflow to each element in order.", "quantifier": "all input lists", "why_tests_cant": "The claim ranges over values of unbounded depth and size; a test only fixes finitely many of them.", "anchors": [{"file": "dessia_common/workflow/blocks.py", "symbols": ["Sequence", "Flatten", "Product", "Unpacker", "Concatenate", "ConcatenateStrings", "Sum", "Substraction", "ForEach"]}]}
{"id": "C42", "title": "Pipes are never wired to the wrong place", "statement": "upstream / downstream look-ups return exactly the pipes of the workflow attached to the variable or block; a free input of the workflow is an input variable of a block fed by no pipe, or a non-block variable feeding one.", "quantifier": "all workflows", "why_tests_cant": "The claim ranges over values of unbounded depth and size; a test only fixes finitely many of them.", "anchors": [{"file": "dessia_common/workflow/core.py", "symbols": ["Workflow.__init__", "Workflow.handle_pipe", "Workflow.handle_block", "Workflow.variable_input_pipe", "Workflow.variable_output_pipes", "Workflow.block_incoming_pipes", "Workflow.block_outgoing_pipes", "Workflow.pipes_between_blocks"]}]}
{"id": "C43", "title": "Pareto points are exactly the non dominated ones", "statement": "No kept point is dominated by another point, and every discarded point is dominated by, or equal to, a kept one.", "quantifier": "all cost matrices of any size", "why_tests_cant": "The claim ranges over values of unbounded depth and size; a test only fixes finitely many of them.", "anchors": [{"file": "dessia_common/datatools/dataset.py", "symbols": ["Dataset.pareto_indexes", "Dataset.pareto_points"]}]}
{"id": "C44", "title": "Pareto sheets partition the dataset", "statement": "The sheets and the remaining dataset returned by pareto_sheets contain each object exactly once, in increasing rank order; the labels of ClusteredDataset.from_pareto_sheets follow the same order.", "quantifier": "all datasets, all numbers of sheets", "why_tests_cant": "The claim ranges over values of unbounded depth and size; a test only fixes finitely many of them.", "anchors": [{"file": "dessia_common/datatools/dataset.py", "symbols": ["Dataset.pareto_sheets"]}, {"file": "dessia_common/datatools/cluster.py", "symbols": ["ClusteredDataset.from_pareto_sheets"]}]}
{"id": "C45", "title": "Selecting in a dataset returns the selected objects", "statement": "dataset[slice] / dataset[boolean list] / dataset[index list] contain exactly the designated objects in the designated order, with the matching matrix rows and labels.", "quantifier": "all datasets, slices, boolean lists and index lists", "why_tests_cant": "The claim ranges over values of unbounded depth and size; a test only fixes finitely many of them.", "anchors": [{"file": "dessia_common/datatools/dataset.py", "symbols": ["Dataset.__getitem__", "Dataset._pick_from_slice", "Dataset._pick_from_boolist", "Dataset._indexlist_to_booleanlist"]}, {"file": "dessia_common/datatools/cluster.py", "symbols": ["ClusteredDataset._pick_from_slice", "ClusteredDataset._pick_from_boolist"]}]}
{"id": "C46", "title": "Sorting a dataset permutes it coherently", "statement": "sort(key) orders the objects by the requested attribute, is a permutation of the dataset and keeps objects and matrix rows aligned.", "quantifier": "all datasets and keys", "why_tests_cant": "The claim ranges over values of unbounded depth and size; a test only fixes finitely many of them.", "anchors": [{"file": "dessia_common/datatools/dataset.py", "symbols": ["Dataset.sort"]}]}
{"id": "C47", "title": "The common attributes of a dataset are common", "statement": "Every name in common_attributes is a feature of every object of the dataset, also for the sum of two datasets, and matrix rows are made of these attributes.", "quantifier": "all datasets, all sums", "why_tests_cant": "The claim ranges over values of unbounded depth and size; a test only fixes finitely many of them.", "anchors": [{"file": "dessia_common/datatools/dataset.py", "symbols": ["Dataset.common_attributes", "Dataset.__add__", "Dataset.extend", "Dataset.matrix"]}]}
{"id": "C48", "title": "Clusters are split by label", "statement": "clustered_sublists returns one dataset per label containing exactly the objects with that label, in order, paired with and named after that label.", "quantifier": "all labelled datasets", "why_tests_cant": "The claim ranges over values of unbounded depth and size; a test only fixes finitely many of them.", "anchors": [{"file": "dessia_common/datatools/cluster.py", "symbols": ["ClusteredDataset.clustered_sublists"]}]}
{"id": "C49", "title": "Distances are metrics", "statement": "manhattan and euclidian distances are symmetric, zero iff the vectors are equal, and (manhattan, infinity) satisfy the triangle inequality on vectors of equal length.", "quantifier": "all vectors of all dimensions", "why_tests_cant": "The claim ranges over values of unbounded depth and size; a test only fixes finitely many of them.", "anchors": [{"file": "dessia_common/datatools/metrics.py", "symbols": ["diff_list", "l1_norm", "l2_norm", "inf_norm", "manhattan_distance", "euclidian_distance"]}]}
{"id": "C50", "title": "Covariance is a symmetric non-negative form", "statement": "covariance(x, y) == covariance(y, x), covariance(x, x) == variance(x) >= 0, and covariance is unchanged by translation.", "quantifier": "all vectors of equal length", "why_tests_cant": "The claim ranges over values of unbounded depth and size; a test only fixes finitely many of them.", "anchors": [{"file": "dessia_common/datatools/metrics.py", "symbols": ["mean", "variance", "covariance"]}]}
{"id": "C51", "title": "Full factorial sampling enumerates the grid", "statement": "full_factorial yields every combination of the levels of the sampled attributes exactly once, the bounds being reached.", "quantifier": "all attribute bounds and numbers", "why_tests_cant": "The claim ranges over values of unbounded depth and size; a test only fixes finitely many of them.", "anchors": [{"file": "dessia_common/datatools/sampling.py", "symbols": ["Sampler.full_factorial", "Sampler._build_parameter_grid"]}]}
{"id": "C52", "title": "Normalising a parameter is invertible", "statement": "original_value(normalize(v)) == v and normalize(original_value(x)) == x for every parameter with distinct bounds; values within the bounds map into [0, 1]; BoundedAttributeValue behaves likewise.", "quantifier": "all bounds and values", "why_tests_cant": "The claim ranges over values of unbounded depth and size; a test only fixes finitely many of them.", "anchors": [{"file": "dessia_common/core.py", "symbols": ["Parameter.normalize", "Parameter.original_value"]}, {"file": "dessia_common/optimization.py", "symbols": ["BoundedAttributeValue"]}]}
{"id": "C53", "title": "Interpolation index inverts interpolation", "statement": "For a monotone list, interpolate_from_istep(list, istep_from_value_on_list(list, v)) == v for every v in the range, an error being raised outside unless extrapolation is requested.", "quantifier": "all monotone lists, all values", "why_tests_cant": "The claim ranges over values of unbounded depth and size; a test only fixes finitely many of them.", "anchors": [{"file": "dessia_common/utils/interpolation.py", "symbols": ["istep_from_value_on_list", "interpolate_from_istep"]}]}
{"id": "C54", "title": "Factorisations are exact and complete", "statement": "number2factor(n) is the set of all pairs of product n; number3factor(n) all the triples of product n (each multiset once when complete=False).", "quantifier": "all positive integers", "why_tests_cant": "The claim ranges over values of unbounded depth and size; a test only fixes finitely many of them.", "anchors": [{"file": "dessia_common/utils/algebra.py", "symbols": ["number2factor", "number3factor", "get_incomplete_factors"]}]}
{"id": "C55", "title": "Merging breakdowns keeps the shallowest path of every object", "statement": "merge_breakdown_dicts contains exactly the objects of both dicts, each with a path of minimal depth.", "quantifier": "all pairs of breakdown dicts", "why_tests_cant": "The claim ranges over values of unbounded depth and size; a test only fixes finitely many of them.", "anchors": [{"file": "dessia_common/breakdown.py", "symbols": ["merge_breakdown_dicts", "breakdown"]}]}
{"id": "C56", "title": "Exported files get the announced extension", "statement": "A saved template always ends with '.<extension>', the extension being appended iff missing; likewise for JSON saves.", "quantifier": "all file names and extensions", "why_tests_cant": "The claim ranges over values of unbounded depth and size; a test only fixes finitely many of them.", "anchors": [{"file": "dessia_common/files.py", "symbols": ["BinaryFile.save_template_to_file", "StringFile.save_template_to_file"]}, {"file": "dessia_common/core.py", "symbols": ["DessiaObject.save_to_file"]}]}
{"id": "C57", "title": "Generated scripts import each name once", "statement": "get_import_dict groups exactly the needed names under their modules, without duplicates.", "quantifier": "all lists of imports", "why_tests_cant": "The claim ranges over values of unbounded depth and size; a test only fixes finitely many of them.", "anchors": [{"file": "dessia_common/workflow/utils.py", "symbols": ["ToScriptElement.get_import_dict", "ToScriptElement.imports_to_str"]}]}
{"id": "C58", "title": "Printed tables show each row once", "statement": "A markdown table shows every row exactly once when it fits the limit; beyond, it shows the first and last rows once and the number of hidden rows is right.", "quantifier": "all contents and limits", "why_tests_cant": "The claim ranges over values of unbounded depth and size; a test only fixes finitely many of them.", "anchors": [{"file": "dessia_common/exports.py", "symbols": ["MarkdownWriter._content_table"]}]}
{"id": "C59", "title": "Excel column checks detect duplicate and missing attributes", "statement": "check_duplicate_attributes returns None iff all the titles are distinct; reading a sheet fails whenever a required attribute is missing.", "quantifier": "all sheets", "why_tests_cant": "The claim ranges over values of unbounded depth and size; a test only fixes finitely many of them.", "anchors": [{"file": "dessia_common/excel_reader.py", "symbols": ["check_duplicate_attributes", "missed_attribute"]}]}
{"id": "C60", "title": "Display settings survive serialization and composition", "statement": "dict_to_object(to_dict(d)) == d; equal settings have equal hashes; composing adds attribute prefixes in order.", "quantifier": "all display settings and attribute paths", "why_tests_cant": "The claim ranges over values of unbounded depth and size; a test only fixes finitely many of them.", "anchors": [{"file": "dessia_common/displays.py", "symbols": ["DisplaySetting"]}]}
{"id": "C61", "title": "Vectors and attributes correspond in optimization", "statement": "vector_to_attributes_values gives every bounded attribute its component (in order) and every fixed attribute its fixed value; dimensionless conversion is invertible; cma-then-gradient returns the better of both results.", "quantifier": "all models and vectors", "why_tests_cant": "The claim ranges over values of unbounded depth and size; a test only fixes finitely many of them.", "anchors": [{"file": "dessia_common/optimization.py", "symbols": ["InstantiatingModelOptimizer", "FixedAttributeValue", "BoundedAttributeValue"]}]}
{"id": "C62", "title": "Every attribute is in at most one schema step", "statement": "find_attribute_step returns the only step holding the attribute, None if there is none and raises when several do.", "quantifier": "all schemas", "why_tests_cant": "The claim ranges over values of unbounded depth and size; a test only fixes finitely many of them.", "anchors": [{"file": "dessia_common/schemas/core.py", "symbols": ["Schema.find_attribute_step"]}]}
{"id": "C63", "title": "Pretty names are readable forms", "statement": "prettyname keeps all the characters up to case, replaces every '_' by a space and is the identity on names without '_' starting by an upper-case letter.", "quantifier": "all strings", "why_tests_cant": "The claim ranges over values of unbounded depth and size; a test only fixes finitely many of them.", "anchors": [{"file": "dessia_common/utils/helpers.py", "symbols": ["prettyname"]}]}
{"id": "C64", "title": "Data equality tells different classes apart", "statement": "data_eq(C, D) for two class objects is True only if C and D are the same class.", "quantifier": "all pairs of class objects", "why_tests_cant": "The claim ranges over values of unbounded depth and size; a test only fixes finitely many of them.", "anchors": [{"file": "dessia_common/core.py", "symbols": ["data_eq"]}, {"file": "dessia_common/utils/helpers.py", "symbols": ["full_classname"]}]}
{"id": "C65", "title": "Comparing an object with any value returns a boolean", "statement": "o == x returns True or False, and never raises, for every DessiaObject o and every Python value x; it is False when x is not an object of the class of o.", "quantifier": "all objects, all values", "why_tests_cant": "The claim ranges over values of unbounded depth and size; a test only fixes finitely many of them.", "anchors": [{"file": "dessia_common/core.py", "symbols": ["DessiaObject.__eq__"]}]}
{"id": "C66", "title": "Data equality is transitive", "statement": "If data_eq(a, b) and data_eq(b, c) then data_eq(a, c).", "quantifier": "all triples of values", "why_tests_cant": "The claim ranges over values of unbounded depth and size; a test only fixes finitely many of them.", "anchors": [{"file": "dessia_common/core.py", "symbols": ["data_eq"]}]}
{"id": "C67", "title": "Equal data gives an empty diff", "statement": "If data_eq(a, b) and data_eq(b, a) then diff(a, b) is empty.", "quantifier": "all pairs of values", "why_tests_cant": "The claim ranges over values of unbounded depth and size; a test only fixes finitely many of them.", "anchors": [{"file": "dessia_common/utils/diff.py", "symbols": ["diff"]}, {"file": "dessia_common/core.py", "symbols": ["data_eq"]}]}
{"id": "C68", "title": "A diff entry designates the two differing values in order", "statement": "In each 'different values' or 'different types' entry of diff(a, b), value1 is the value found in a at the path of the entry and value2 the value found in b at this path.", "quantifier": "all pairs of values, all entries", "why_tests_cant": "The claim ranges over values of unbounded depth and size; a test only fixes finitely many of them.", "anchors": [{"file": "dessia_common/utils/diff.py", "symbols": ["diff", "dict_diff", "sequence_diff", "DifferentValues", "DifferentType"]}]}
{"id": "C69", "title": "A reported different value is a real difference", "statement": "The two values of every 'different values' entry of a diff are not data-equal.", "quantifier": "all pairs of values, all entries", "why_tests_cant": "The claim ranges over values of unbounded depth and size; a test only fixes finitely many of them.", "anchors": [{"file": "dessia_common/utils/diff.py", "symbols": ["diff", "dict_diff", "sequence_diff", "DifferentValues"]}, {"file": "dessia_common/core.py", "symbols": ["data_eq"]}]}
{"id": "C70", "title": "The diff of any two values can be computed", "statement": "diff(a, b) returns a Diff for every pair of values an object may hold, it never raises.", "quantifier": "all pairs of values", "why_tests_cant": "The claim ranges over values of unbounded depth and size; a test only fixes finitely many of them.", "anchors": [{"file": "dessia_common/utils/diff.py", "symbols": ["diff", "dict_diff", "sequence_diff"]}]}
{"id": "C71", "title": "A deep copy keeps the name of every object", "statement": "Each object inside copy() of a value has the name of the object it is a copy of.", "quantifier": "all copyable values, any sharing or repetition of equal sub-objects", "why_tests_cant": "The claim ranges over values of unbounded depth and size; a test only fixes finitely many of them.", "anchors": [{"file": "dessia_common/utils/copy.py", "symbols": ["deepcopy_value", "search_memo"]}, {"file": "dessia_common/core.py", "symbols": ["DessiaObject.__deepcopy__", "DessiaObject.__eq__"]}]}
{"id": "C72", "title": "A shallow copy has the class and constructor data of the original", "statement": "copy(deep=False) of an object whose attributes are its constructor arguments returns an object of the same class with the same attributes.", "quantifier": "all objects of all such classes", "why_tests_cant": "The claim ranges over values of unbounded depth and size; a test only fixes finitely many of them.", "anchors": [{"file": "dessia_common/core.py", "symbols": ["DessiaObject.__copy__", "DessiaObject.copy"]}]}
{"id": "C73", "title": "Serialization fails exactly on unsupported values", "statement": "to_dict(use_pointers=False) of an object succeeds if and only if every value reached through its serialized attributes is of a supported kind; it raises otherwise and never drops an unsupported value silently.", "quantifier": "all objects", "why_tests_cant": "The claim ranges over values of unbounded depth and size; a test only fixes finitely many of them.", "anchors": [{"file": "dessia_common/serialization.py", "symbols": ["serialize", "serialize_dict", "serialize_sequence"]}, {"file": "dessia_common/core.py", "symbols": ["DessiaObject.to_dict"]}]}
{"id": "C74", "title": "The BSON verdict of the platform check", "statement": "The BSON step of check_platform accepts a serialized object iff every value it holds, at any depth, is a primitive, a sequence or a dictionary with integer keys or string keys without dot, whenever no two keys of a dictionary have the same string.", "quantifier": "all serialized objects", "why_tests_cant": "The claim ranges over values of unbounded depth and size; a test only fixes finitely many of them.", "anchors": [{"file": "dessia_common/core.py", "symbols": ["DessiaObject.check_platform", "stringify_dict_keys"]}, {"file": "dessia_common/utils/types.py", "symbols": ["is_bson_valid"]}]}
{"id": "C75", "title": "Values can flow between blocks through a free variable", "statement": "When a pipe goes from the output of a block to a free variable, and an other from this variable to the input of a second block, running the workflow with all its inputs evaluates the first block then the second.", "quantifier": "all workflows with such a chain", "why_tests_cant": "The claim ranges over values of unbounded depth and size; a test only fixes finitely many of them.", "anchors": [{"file": "dessia_common/workflow/core.py", "symbols": ["Workflow.runtime_blocks", "Workflow.upstream_blocks", "Workflow.block_upstream_variables", "Workflow.run"]}]}
{"id": "C76", "title": "Changing an input of a state changes its result", "statement": "After add_input_value gives an other value to an input of a state already run, continuing the run gives the output of a run made with this value from the start.", "quantifier": "all workflows, all states, all input values", "why_tests_cant": "The claim ranges over values of unbounded depth and size; a test only fixes finitely many of them.", "anchors": [{"file": "dessia_common/workflow/core.py", "symbols": ["WorkflowState.add_input_value", "WorkflowState.continue_run", "WorkflowState._activable_blocks"]}]}
{"id": "C77", "title": "Evaluating blocks one by one ends", "statement": "Calling evaluate_next_block again and again on a state evaluates a block having all its inputs each time, and ends up returning nothing once every block which can be evaluated has been.", "quantifier": "all workflows, all states, any number of calls", "why_tests_cant": "The claim ranges over values of unbounded depth and size; a test only fixes finitely many of them.", "anchors": [{"file": "dessia_common/workflow/core.py", "symbols": ["WorkflowState.evaluate_next_block", "WorkflowState._activable_blocks"]}]}
{"id": "C78", "title": "A step display has its inputs at hand", "statement": "After add_step_display(variable, step), every workflow input the variable depends on is in this step or in a previous one, and stays so as long as the display is kept.", "quantifier": "all workflows, all histories of step editions", "why_tests_cant": "The claim ranges over values of unbounded depth and size; a test only fixes finitely many of them.", "anchors": [{"file": "dessia_common/workflow/core.py", "symbols": ["Workflow.add_step_display", "Workflow.change_input_step", "Step.add_display_setting"]}]}
{"id": "C79", "title": "The package mix counts every package a workflow calls", "statement": "For every workflow, the package mix gives a positive share to each package whose classes or methods its blocks call, at any depth of nesting.", "quantifier": "all workflows, any kinds of blocks, any nesting", "why_tests_cant": "The claim ranges over values of unbounded depth and size; a test only fixes finitely many of them.", "anchors": [{"file": "dessia_common/workflow/core.py", "symbols": ["Workflow.package_mix"]}, {"file": "dessia_common/workflow/blocks.py", "symbols": ["ClassMethod", "ForEach", "InstantiateModel.package_mix"]}]}
{"id": "C80", "title": "Every file given to an Archive block can be extracted by its name", "statement": "For all files given to an Archive block, the archive it returns has one entry per file in the order of the ports, and reading the archive under the name of a file gives its content.", "quantifier": "all numbers of inputs, all file names and contents", "why_tests_cant": "The claim ranges over values of unbounded depth and size; a test only fixes finitely many of them.", "anchors": [{"file": "dessia_common/workflow/blocks.py", "symbols": ["Archive.evaluate"]}, {"file": "dessia_common/files.py", "symbols": ["generate_archive"]}]}
{"id": "C81", "title": "Values of a periodic parameter compare modulo the period", "statement": "are_values_equal holds exactly for two values whose distance modulo the period is within the tolerance, and within the tolerance when the parameter is not periodic.", "quantifier": "all parameters and pairs of values", "why_tests_cant": "The claim ranges over values of unbounded depth and size; a test only fixes finitely many of them.", "anchors": [{"file": "dessia_common/core.py", "symbols": ["Parameter.are_values_equal"]}]}
{"id": "C82", "title": "The parameters of a parameter set bound its values", "statement": "The parameters of a set have one entry per name in order, whose bounds are reached by values of this name and bound all of them; the means are within these bounds.", "quantifier": "all parameter sets", "why_tests_cant": "The claim ranges over values of unbounded depth and size; a test only fixes finitely many of them.", "anchors": [{"file": "dessia_common/core.py", "symbols": ["ParameterSet.parameters", "ParameterSet.means"]}]}
{"id": "C83", "title": "Gradient polishing starts from the point found by CMA", "statement": "optimize_cma_then_gradient starts the gradient search from the point at which the CMA search stopped, in the same units.", "quantifier": "all optimizers, any bounds, any results of the CMA search", "why_tests_cant": "The claim ranges over values of unbounded depth and size; a test only fixes finitely many of them.", "anchors": [{"file": "dessia_common/optimization.py", "symbols": ["InstantiatingModelOptimizer.optimize_cma_then_gradient", "InstantiatingModelOptimizer.optimize_gradient"]}]}
{"id": "C84", "title": "A row of a markdown table takes one line", "statement": "Each row of a table is written on one line with one cell per value, which shows the value if it is short enough, and its beginning followed by three dots otherwise.", "quantifier": "all rows, all strings, all limits", "why_tests_cant": "The claim ranges over values of unbounded depth and size; a test only fixes finitely many of them.", "anchors": [{"file": "dessia_common/exports.py", "symbols": ["MarkdownWriter._table_line", "MarkdownWriter._string_in_table"]}]}
{"id": "C85", "title": "Equal display settings describe the same display", "statement": "Two display settings which compare equal call the same method with the same arguments.", "quantifier": "all pairs of display settings", "why_tests_cant": "The claim ranges over values of unbounded depth and size; a test only fixes finitely many of them.", "anchors": [{"file": "dessia_common/displays.py", "symbols": ["DisplaySetting.__eq__"]}]}
{"id": "C86", "title": "A display setting is found by its selector", "statement": "Asking an object for its display settings by selector returns the first setting declared with it, and raises a ValueError if there is none.", "quantifier": "all lists of settings, all selectors", "why_tests_cant": "The claim ranges over values of unbounded depth and size; a test only fixes finitely many of them.", "anchors": [{"file": "dessia_common/core.py", "symbols": ["DessiaObject._display_settings_from_selector"]}]}
{"id": "C87", "title": "Iterating a dataset ends and yields its objects", "statement": "Iterating over a dataset yields each of its objects once, in order, then ends.", "quantifier": "all datasets, of any length", "why_tests_cant": "The claim ranges over values of unbounded depth and size; a test only fixes finitely many of them.", "anchors": [{"file": "dessia_common/datatools/dataset.py", "symbols": ["Dataset.__getitem__", "Dataset.__len__"]}]}
{"id": "C88", "title": "Sorting a clustered dataset keeps labels with objects", "statement": "After sort on a clustered dataset, each object still has the label it had before.", "quantifier": "all clustered datasets, all sort keys", "why_tests_cant": "The claim ranges over values of unbounded depth and size; a test only fixes finitely many of them.", "anchors": [{"file": "dessia_common/datatools/dataset.py", "symbols": ["Dataset.sort"]}, {"file": "dessia_common/datatools/cluster.py", "symbols": ["ClusteredDataset"]}]}
{"id": "C89", "title": "Entries of a covariance matrix are covariances", "statement": "The entry (i, j) of covariance_matrix is the covariance of the i-th and j-th variables, whatever the orientation of the matrix.", "quantifier": "all rectangular matrices", "why_tests_cant": "The claim ranges over values of unbounded depth and size; a test only fixes finitely many of them.", "anchors": [{"file": "dessia_common/datatools/metrics.py", "symbols": ["covariance_matrix", "covariance"]}]}
{"id": "C90", "title": "Random samples stay within their bounds", "statement": "Each sample of a latin hypercube or Monte-Carlo sampling gives every sampled attribute a value within its bounds and leaves the constant attributes at their value.", "quantifier": "all samplers, bounds and draws of the generator", "why_tests_cant": "The claim ranges over values of unbounded depth and size; a test only fixes finitely many of them.", "anchors": [{"file": "dessia_common/datatools/sampling.py", "symbols": ["ClassSampler.lhs", "ClassSampler.montecarlo", "ClassSampler.make_doe"]}]}
{"id": "C91", "title": "A parallel plot shows every common attribute once", "statement": "The axes of the parallel plot of a dataset hold every common attribute exactly once, whatever the correlations between attributes.", "quantifier": "all datasets, all correlations", "why_tests_cant": "The claim ranges over values of unbounded depth and size; a test only fixes finitely many of them.", "anchors": [{"file": "dessia_common/datatools/dataset.py", "symbols": ["Dataset.plot_parallel_plot", "Dataset._parallel_plot_attr", "Dataset._get_correlations"]}]}
{"id": "C92", "title": "Real centroids are the cluster elements nearest to the mean", "statement": "mean and real centroids of a clustered dataset: cluster_real_centroids gives for each cluster one of its objects whose distance to the mean is minimal.", "quantifier": "all clustered datasets, all labels, all distances", "why_tests_cant": "The claim ranges over values of unbounded depth and size; a test only fixes finitely many of them.", "anchors": [{"file": "dessia_common/datatools/cluster.py", "symbols": ["ClusteredDataset.cluster_real_centroids", "ClusteredDataset.cluster_distances"]}]}
{"id": "C93", "title": "Point families of a clustered dataset partition its objects", "statement": "In the plots of a clustered dataset, each object is in exactly one point family, that of its label.", "quantifier": "all lists of labels", "why_tests_cant": "The claim ranges over values of unbounded depth and size; a test only fixes finitely many of them.", "anchors": [{"file": "dessia_common/datatools/cluster.py", "symbols": ["ClusteredDataset._point_families"]}]}
{"id": "C94", "title": "Printing a dataset shows its first and last objects", "statement": "str(dataset) shows all the objects of a short dataset, and the first five and last five objects of a long one, in order.", "quantifier": "all datasets, of any length", "why_tests_cant": "The claim ranges over values of unbounded depth and size; a test only fixes finitely many of them.", "anchors": [{"file": "dessia_common/datatools/dataset.py", "symbols": ["Dataset.__str__", "Dataset._print_objects_slice", "Dataset._print_object"]}]}
{"id": "C95", "title": "Printed cells of a dataset are aligned with their titles", "statement": "In str(dataset), each printed row has one cell per title, each cell being as wide as its title.", "quantifier": "all datasets, all attribute names and values", "why_tests_cant": "The claim ranges over values of unbounded depth and size; a test only fixes finitely many of them.", "anchors": [{"file": "dessia_common/datatools/dataset.py", "symbols": ["Dataset._print_titles", "Dataset._print_object"]}]}
{"id": "C96", "title": "Rows of a sub-matrix hold the requested attributes", "statement": "sub_matrix gives one row per object, holding the values of the requested attributes in the requested order.", "quantifier": "all datasets, all non empty lists of attributes (without attribute there is no row)", "why_tests_cant": "The claim ranges over values of unbounded depth and size; a test only fixes finitely many of them.", "anchors": [{"file": "dessia_common/datatools/dataset.py", "symbols": ["Dataset.sub_matrix"]}]}
{"id": "C97", "title": "The Minkowski distance is a metric", "statement": "minkowski_distance is symmetric, zero exactly on equal vectors, and satisfies the triangle inequality for every order at least one.", "quantifier": "all vectors and orders", "why_tests_cant": "The claim ranges over values of unbounded depth and size; a test only fixes finitely many of them.", "anchors": [{"file": "dessia_common/datatools/metrics.py", "symbols": ["minkowski_distance"]}]}
{"id": "C98", "title": "Merging the sublists of a clustered dataset gives it back", "statement": "Splitting a clustered dataset into sublists and merging them gives the same objects, each with the same label.", "quantifier": "all clustered datasets, all labels", "why_tests_cant": "The claim ranges over values of unbounded depth and size; a test only fixes finitely many of them.", "anchors": [{"file": "dessia_common/datatools/cluster.py", "symbols": ["ClusteredDataset.clustered_sublists", "ClusteredDataset._merge_sublists"]}]}
{"id": "C99", "title": "match_variables lists the compatible variables of matching types", "statement": "For every workflow, match_variables associates to each typed variable exactly the other variables to which a pipe may connect it, that are typed, on another block and another side, and whose type its own type matches", "quantifier": "every list of variables, free or of blocks, with or without types", "why_tests_cant": "The claim ranges over values of unbounded depth and size; a test only fixes finitely many of them.", "anchors": [{"file": "dessia_common/workflow/core.py", "symbols": ["Workflow.match_variables", "Workflow.variable_compatibility"]}, {"file": "dessia_common/utils/types.py", "symbols": ["typematch"]}]}
{"id": "C100", "title": "A type matches its optional form", "statement": "For every type T, a variable of type T can be plugged into a variable of type Optional[T]: typematch(T, Optional[T]) is True", "quantifier": "every annotation, of any depth", "why_tests_cant": "The claim ranges over values of unbounded depth and size; a test only fixes finitely many of them.", "anchors": [{"file": "dessia_common/utils/types.py", "symbols": ["typematch", "complex_first_type_match", "heal_type"]}]}
{"id": "C101", "title": "The arguments found for a method do not depend on the methods inspected before", "statement": "After any history of calls of inspect_arguments, inspect_arguments(method) gives the arguments and the defaults of this method", "quantifier": "every history of inspected methods, every method", "why_tests_cant": "The claim ranges over values of unbounded depth and size; a test only fixes finitely many of them.", "anchors": [{"file": "dessia_common/schemas/core.py", "symbols": ["inspect_arguments"]}]}
{"id": "C102", "title": "A schema shows the parameters with their defaults", "statement": "The schema of a class or of a method has as attributes exactly the parameters of its signature that are not reserved, in order, each with its default value or as undefined", "quantifier": "every signature that Python accepts", "why_tests_cant": "The claim ranges over values of unbounded depth and size; a test only fixes finitely many of them.", "anchors": [{"file": "dessia_common/schemas/core.py", "symbols": ["MemberSchema", "split_default_args", "RESERVED_ARGNAMES"]}]}
{"id": "C103", "title": "Workflows that compare equal define the same computation", "statement": "If two workflows compare equal with ==, they have the same inputs (names, annotations, locks) and give the same output for every values of these inputs.", "quantifier": "all pairs of workflows, all values of their inputs", "why_tests_cant": "The claim ranges over values of unbounded depth and size; a test only fixes finitely many of them.", "anchors": [{"file": "dessia_common/workflow/core.py", "symbols": ["Workflow._data_eq", "Workflow._equivalent_pipes", "Block.equivalent", "Variable.equivalent"]}, {"file": "dessia_common/workflow/blocks.py", "symbols": ["InstantiateModel.equivalent"]}]}
{"id": "C104", "title": "Comparing workflows always gives an answer", "statement": "Comparing two workflows never raises, a workflow is equal to itself, and a == b agrees with b == a.", "quantifier": "all pairs of workflows", "why_tests_cant": "The claim ranges over values of unbounded depth and size; a test only fixes finitely many of them.", "anchors": [{"file": "dessia_common/workflow/core.py", "symbols": ["Workflow._data_hash", "Workflow._data_eq", "Step.__hash__"]}, {"file": "dessia_common/workflow/blocks.py", "symbols": ["InstantiateModel.equivalent", "ClassMethod.equivalent"]}]}
{"id": "C105", "title": "An object saved with pointers is read back as an equal object", "statement": "For every object, dict_to_object of the JSON writing of to_dict() (with its default, pointer-based, serialization) gives an object of the same class, with the same attributes, which is equal to it in both directions", "quantifier": "every object, every sharing between its parts, standalone classes or not", "why_tests_cant": "The claim ranges over values of unbounded depth and size; a test only fixes finitely many of them.", "anchors": [{"file": "dessia_common/serialization.py", "symbols": ["serialize_with_pointers", "add_references", "dict_to_object", "deserialization_order", "dereference_jsonpointers"]}, {"file": "dessia_common/core.py", "symbols": ["DessiaObject.save_to_file", "DessiaObject.from_json"]}]}
{"id": "C106", "title": "A document with references is read as what it stands for", "statement": "dict_to_object of a JSON document holding references to its _references gives the object obtained by replacing each reference with what it refers to, whatever the order of the entries, the depth and the number of the references", "quantifier": "every document whose references can be replaced, in any order", "why_tests_cant": "The claim ranges over values of unbounded depth and size; a test only fixes finitely many of them.", "anchors": [{"file": "dessia_common/serialization.py", "symbols": ["dict_to_object", "find_references", "pointer_graph", "deserialization_order", "dereference_jsonpointers"]}]}
{"id": "C107", "title": "A run can be saved and continued later", "statement": "Saving the state of a run at any time, restoring it (with the workflow read from its own dict) and continuing it gives the result which the uninterrupted run has for the same inputs; the restored state has the inputs, the output and the progress of the saved one", "quantifier": "every workflow, every history of evaluations, every times at which the state is saved and restored", "why_tests_cant": "The claim ranges over values of unbounded depth and size; a test only fixes finitely many of them.", "anchors": [{"file": "dessia_common/workflow/core.py", "symbols": ["WorkflowState.to_dict", "WorkflowState.dict_to_object", "WorkflowState.continue_run", "ExecutionInfo.to_dict", "Workflow.memorized_pipes", "Workflow.file_inputs"]}]}
{"id": "C108", "title": "A completed run shows its displays and exports", "statement": "On a WorkflowRun, whatever displays and exports were asked before, the display (or export) of a block gives what this block computes from the values which its inputs must hold for the inputs of the run, although the run keeps only memorized values; each missing block is evaluated once.", "quantifier": "all workflows, all inputs, all histories of displays and exports", "why_tests_cant": "The claim ranges over values of unbounded depth and size; a test only fixes finitely many of them.", "anchors": [{"file": "dessia_common/workflow/core.py", "symbols": ["WorkflowState.block_display", "WorkflowState.export", "WorkflowState.evaluate_branch", "WorkflowRun.__init__", "Workflow.branch_by_selector", "WorkflowState.to_workflow_run"]}]}
{"id": "C109", "title": "The branch of a display holds exactly the blocks to evaluate", "statement": "secondary_branch_blocks(block) gives exactly the blocks which must be evaluated for this block once the blocks leading to the output are, each once, and memorizes exactly the pipes from the latter to the former.", "quantifier": "all workflows, all blocks", "why_tests_cant": "The claim ranges over values of unbounded depth and size; a test only fixes finitely many of them.", "anchors": [{"file": "dessia_common/workflow/core.py", "symbols": ["Workflow.secondary_branch_blocks", "Workflow._branch_blocks", "Workflow.is_block_secondary", "Workflow.pipes_between_blocks"]}]}
{"id": "C110", "title": "The upstream inputs of a variable determine its value", "statement": "upstream_inputs(variable) gives, without repetition, exactly the inputs of the workflow, not locked, from which the block of this variable is reached; changing the other inputs which are not locked does not change the value of the variable.", "quantifier": "all workflows, all variables of blocks, all values of inputs", "why_tests_cant": "The claim ranges over values of unbounded depth and size; a test only fixes finitely many of them.", "anchors": [{"file": "dessia_common/workflow/core.py", "symbols": ["Workflow.upstream_inputs", "Workflow.upstream_branch", "Workflow.has_upstream_block"]}]}
{"id": "C111", "title": "Blocks have distinct selectors", "statement": "Two different blocks of a workflow which are displayed or exported have different selectors, whatever their names and positions.", "quantifier": "all workflows, all names, all pairs of blocks", "why_tests_cant": "The claim ranges over values of unbounded depth and size; a test only fixes finitely many of them.", "anchors": [{"file": "dessia_common/workflow/core.py", "symbols": ["Workflow.block_selector", "Workflow.selector_name"]}]}
{"id": "C112", "title": "The reference path of a display leads to the displayed object", "statement": "On a WorkflowRun, the reference path of the settings of a display designates the value which the displayed input of the block holds.", "quantifier": "all workflows, all displays, all inputs, all histories of displays and exports", "why_tests_cant": "The claim ranges over values of unbounded depth and size; a test only fixes finitely many of them.", "anchors": [{"file": "dessia_common/workflow/core.py", "symbols": ["Workflow.blocks_display_settings", "WorkflowRun._get_from_path", "Workflow.handle_block"]}]}
{"id": "C113", "title": "Saved arguments are read as the values they were", "statement": "A value which matches the annotation of an argument, written as a JSON document by serialize, is read by deserialize_argument for this annotation as a value with the same data.", "quantifier": "all annotations, all values which match them", "why_tests_cant": "The claim ranges over values of unbounded depth and size; a test only fixes finitely many of them.", "anchors": [{"file": "dessia_common/serialization.py", "symbols": ["deserialize_argument", "deserialize_with_typing", "deserialize_with_type", "serialize"]}, {"file": "dessia_common/typings.py", "symbols": ["InstanceOf"]}]}
{"id": "C114", "title": "What is read for an annotation matches the annotation", "statement": "If deserialize_argument reads a document for an annotation without error, the result is a value of this annotation.", "quantifier": "all annotations, all JSON documents", "why_tests_cant": "The claim ranges over values of unbounded depth and size; a test only fixes finitely many of them.", "anchors": [{"file": "dessia_common/serialization.py", "symbols": ["deserialize_argument", "deserialize_with_typing", "deserialize_with_type", "SerializableObject.dict_to_object"]}]}
{"id": "C115", "title": "The arguments of a run are read from its document", "statement": "Workflow.dict_to_arguments(document, 'run') gives exactly one value, read for the type of the input, for each input which is not locked and has an entry; it raises if an input without default value has none; entries of locked inputs and other entries have no effect; a run with the arguments which are read has a value for every input; a saved call is read back as the same call.", "quantifier": "all workflows, all documents, all values of inputs", "why_tests_cant": "The claim ranges over values of unbounded depth and size; a test only fixes finitely many of them.", "anchors": [{"file": "dessia_common/workflow/core.py", "symbols": ["Workflow.dict_to_arguments", "Workflow.run", "Workflow.input_values"]}]}
{"id": "C116", "title": "The arguments of a method are read from its document", "statement": "dict_to_arguments(document, method) gives each argument of the method the value read, for its annotation, from the entry of the document for this argument; arguments without entry are left to their default values; the arguments of a call which were saved are read back as the same arguments.", "quantifier": "all methods, all documents, all calls", "why_tests_cant": "The claim ranges over values of unbounded depth and size; a test only fixes finitely many of them.", "anchors": [{"file": "dessia_common/core.py", "symbols": ["DessiaObject.dict_to_arguments", "DessiaObject.method_dict"]}, {"file": "dessia_common/serialization.py", "symbols": ["deserialize_argument"]}]}
{"id": "C117", "title": "The form of a run shows each input once, as it is", "statement": "The schema of the run of a workflow (method_schemas['run']) has exactly one entry for each input, in the step of the input or among the spare inputs, with the index of the input as key, its default value, its label or block and name as title, its type, and editable exactly when the input is not locked; this holds after any history of edits of inputs and steps.", "quantifier": "all workflows, all histories of edits", "why_tests_cant": "The claim ranges over values of unbounded depth and size; a test only fixes finitely many of them.", "anchors": [{"file": "dessia_common/workflow/core.py", "symbols": ["Workflow.method_schemas", "Workflow.input_schema", "Workflow.input_annotations", "Workflow.spare_inputs"]}]}
{"id": "C118", "title": "Later runs use the edited inputs", "statement": "A value given to lock_input is the value of this input in every later run; a value given to set_input_default is its value when the user gives none; reset_input_default makes the input required; rename_input changes the title in the form only; no edit changes the values of other inputs; after any history of edits the workflow can be run when its inputs without default value are given.", "quantifier": "all workflows, all histories of edits, all values", "why_tests_cant": "The claim ranges over values of unbounded depth and size; a test only fixes finitely many of them.", "anchors": [{"file": "dessia_common/workflow/core.py", "symbols": ["Workflow.lock_input", "Workflow.set_input_default", "Workflow.reset_input_default", "Workflow.rename_input", "Workflow.run"]}]}
{"id": "C119", "title": "The script of a workflow rebuilds it", "statement": "Running the text given by to_script in a new Python process, where the same classes can be imported, defines a workflow like the original: the same blocks in the same order (workflow blocks and ForEach blocks included) with the same names, positions, default values and locks, pipes which join the corresponding variables, the same output, name, documentation, steps and description; so that it computes the same results.", "quantifier": "all workflows, of any size and any depth of nesting", "why_tests_cant": "The claim ranges over values of unbounded depth and size; a test only fixes finitely many of them.", "anchors": [{"file": "dessia_common/workflow/core.py", "symbols": ["Workflow.to_script", "Workflow._to_script", "Workflow.pipes_to_script", "Variable._to_script"]}, {"file": "dessia_common/workflow/utils.py", "symbols": ["ToScriptElement", "blocks_to_script", "nonblock_variables_to_script"]}, {"file": "dessia_common/workflow/blocks.py", "symbols": ["WorkflowBlock._to_script", "ForEach._to_script"]}]}
{"id": "C120", "title": "A block survives serialization", "statement": "Reading the dict which to_dict gives for a block of the catalogue gives a block of the same class with the same arguments, name and position, and the same variables with their labels, default values and locks.", "quantifier": "all block classes of the catalogue, all their arguments, names, positions and settings of variables", "why_tests_cant": "The claim ranges over values of unbounded depth and size; a test only fixes finitely many of them.", "anchors": [{"file": "dessia_common/workflow/blocks.py", "symbols": ["InstantiateModel", "ModelMethod", "ClassMethod", "Filter", "Export", "Archive", "Display", "MultiObject", "Substraction", "ConcatenateStrings"]}, {"file": "dessia_common/workflow/core.py", "symbols": ["Block.to_dict", "Block.dict_to_object", "Block.deserialize_variables"]}]}
{"id": "C121", "title": "Equivalent blocks compute the same and hash the same", "statement": "When a block is equivalent to another, both give the same outputs for the same inputs, and have the same equivalent hash.", "quantifier": "all pairs of blocks of the catalogue, all values of inputs", "why_tests_cant": "The claim ranges over values of unbounded depth and size; a test only fixes finitely many of them.", "anchors": [{"file": "dessia_common/workflow/blocks.py", "symbols": ["InstantiateModel.equivalent", "ClassMethod.equivalent", "Filter.equivalent", "Export.equivalent", "MultiObject.equivalent"]}, {"file": "dessia_common/workflow/core.py", "symbols": ["Block.equivalent", "Block.equivalent_hash", "Variable.equivalent"]}]}
{"id": "C122", "title": "The declaration of a block in a script rebuilds it", "statement": "The line which to_script writes for a block of the catalogue, run after the imports which it asks for, builds a block of the same class with the same arguments, name and position.", "quantifier": "all block classes of the catalogue, all arguments, names and positions, all sets of further imports", "why_tests_cant": "The claim ranges over values of unbounded depth and size; a test only fixes finitely many of them.", "anchors": [{"file": "dessia_common/workflow/blocks.py", "symbols": ["InstantiateModel._to_script", "Filter._to_script", "SetModelAttribute._to_script", "ConcatenateStrings._to_script", "MultiObject._to_script", "Export._to_script"]}, {"file": "dessia_common/workflow/core.py", "symbols": ["Block.base_script"]}, {"file": "dessia_common/typings.py", "symbols": ["ClassMethodType", "MethodType", "AttributeType", "CadViewType", "PlotDataType"]}]}
{"id": "C123", "title": "A copied block computes the same", "statement": "The deep copy of a block of the catalogue has its class, name and position, gives the same outputs for the same inputs, and is equivalent to it.", "quantifier": "all block classes of the catalogue, all arguments, all values of inputs", "why_tests_cant": "The claim ranges over values of unbounded depth and size; a test only fixes finitely many of them.", "anchors": [{"file": "dessia_common/core.py", "symbols": ["DessiaObject.copy", "DessiaObject.__deepcopy__"]}, {"file": "dessia_common/utils/copy.py", "symbols": ["deepcopy_value", "search_memo"]}, {"file": "dessia_common/typings.py", "symbols": ["AttributeType.__deepcopy__", "MethodType.__deepcopy__"]}]}
{"id": "C124", "title": "An object exported to Excel is read back equal", "statement": "Writing an object to an Excel file and reading the file gives an equal object.", "quantifier": "all objects, with attributes, lists, dictionaries and objects of any depth, all classes", "why_tests_cant": "The claim ranges over values of unbounded depth and size; a test only fixes finitely many of them.", "anchors": [{"file": "dessia_common/exports.py", "symbols": ["XLSXWriter.__init__", "XLSXWriter.write_value_to_cell", "XLSXWriter.compute_cell_link", "XLSXWriter.write_object_to_row", "XLSXWriter.write"]}, {"file": "dessia_common/excel_reader.py", "symbols": ["ExcelReader.process_workbook", "ExcelReader.read_workbook", "ExcelReader.update_attribute_values", "ExcelReader.process_sub_objects"]}, {"file": "dessia_common/core.py", "symbols": ["DessiaObject.to_xlsx", "DessiaObject.from_xlsx"]}]}
{"id": "C125", "title": "Every object below a root has one row in its Excel file, and links lead to it", "statement": "In the workbook of an object, the sheet of each class lists once each the different objects of this class below the root, the path of a row leads to an object equal to that of the row, and the cell of an attribute which is an object is linked to the row of an equal object.", "quantifier": "all objects, of any depth, all equalities which are equivalences", "why_tests_cant": "The claim ranges over values of unbounded depth and size; a test only fixes finitely many of them.", "anchors": [{"file": "dessia_common/exports.py", "symbols": ["XLSXWriter.__init__", "XLSXWriter.compute_cell_link", "XLSXWriter.write"]}, {"file": "dessia_common/breakdown.py", "symbols": ["breakdown", "merge_breakdown_dicts", "object_breakdown"]}]}
{"id": "C126", "title": "A catalogue in Excel gives one object per row", "statement": "Reading a catalogue gives, for each sheet, one object per row in the order of the rows, built with the arguments which are under the names of the header; a header where a name occurs twice is refused.", "quantifier": "all workbooks, all classes, all numbers of rows and columns", "why_tests_cant": "The claim ranges over values of unbounded depth and size; a test only fixes finitely many of them.", "anchors": [{"file": "dessia_common/excel_reader.py", "symbols": ["ExcelReader.read_catalog", "ExcelReader.process_workbook_catalog", "check_duplicate_attributes", "ExcelReader.get_data", "ExcelDataExtract.missed_attribute"]}]}
{"id": "C127", "title": "A copied state of execution continues as the original", "statement": "The deep copy of a workflow state or of a run succeeds however far the workflow was run; it holds the same values, active items, output and evaluations, and any sequence of operations on the copy gives the results, or the error, it gives on the original.", "quantifier": "all workflows, all states which can be reached, all sequences of operations after the copy", "why_tests_cant": "The claim ranges over values of unbounded depth and size; a test only fixes finitely many of them.", "anchors": [{"file": "dessia_common/workflow/core.py", "symbols": ["WorkflowState.__deepcopy__", "Workflow.__deepcopy__", "WorkflowRun.__init__", "WorkflowState.activate_inputs"]}, {"file": "dessia_common/utils/copy.py", "symbols": ["deepcopy_value"]}]}
{"id": "C128", "title": "Equal states hold the same values", "statement": "A state compares equal to its copy; when two states of a workflow compare equal, the progress, inputs (files put aside), output and active items are the same, and so are the values on all pipes.", "quantifier": "all pairs of states, all workflows, all values", "why_tests_cant": "The claim ranges over values of unbounded depth and size; a test only fixes finitely many of them.", "anchors": [{"file": "dessia_common/workflow/core.py", "symbols": ["WorkflowState._data_eq", "WorkflowState._data_hash"]}, {"file": "dessia_common/core.py", "symbols": ["DessiaObject.__eq__"]}]}
{"id": "C129", "title": "The script of a run runs the workflow again with the same values", "statement": "The text returned by the `to_script` of a run, executed in a new process, rebuilds the workflow and runs it with the values the run had; this run ends with the same output, the same input values and the same values on the pipes.", "quantifier": "all workflows which can be written as scripts, all values of their inputs, all runs which end", "why_tests_cant": "The claim ranges over values of unbounded depth and size; a test only fixes finitely many of them.", "anchors": [{"file": "dessia_common/workflow/core.py", "symbols": ["WorkflowRun.to_script", "WorkflowRun._to_script", "WorkflowRun._split_input_values"]}, {"file": "dessia_common/workflow/utils.py", "symbols": ["process_value", "generate_default_value", "update_imports"]}]}
{"id": "C130", "title": "A class whose parameters cannot be asked for is reported invalid", "statement": "`Schema.is_valid` is False, and `check_list` names the faults, exactly when a parameter of the class has an annotation for which no form can be computed or a mutable default value; it never raises.", "quantifier": "all classes, all annotations, all defaults", "why_tests_cant": "The claim ranges over values of unbounded depth and size; a test only fixes finitely many of them.", "anchors": [{"file": "dessia_common/schemas/core.py", "symbols": ["Schema.is_valid", "Schema.check_list", "SchemaAttributeCollection.check_list", "DynamicDict.check_list", "UnionProperty.check_list"]}, {"file": "dessia_common/checks.py", "symbols": ["CheckList"]}]}
{"id": "C131", "title": "The form of a class shows each parameter once", "statement": "The dictionary of the schema of a class has one entry for each parameter of its constructor, in order, which tells its name, title, description, annotation, default value and whether it can be edited.", "quantifier": "all classes, all annotations, all docstrings, all defaults", "why_tests_cant": "The claim ranges over values of unbounded depth and size; a test only fixes finitely many of them.", "anchors": [{"file": "dessia_common/schemas/core.py", "symbols": ["ClassSchema.to_dict", "SchemaAttributeCollection.chunk", "Property.to_dict", "OptionalProperty.to_dict", "UnionProperty.to_dict"]}]}
{"id": "C132", "title": "The default dictionary of a class has the default of each parameter", "statement": "`default_dict` has one entry for each parameter and the name of the class: the declared default, written for JSON, or None without default; `default_value` has those declared only.", "quantifier": "all classes, all annotations, all defaults", "why_tests_cant": "The claim ranges over values of unbounded depth and size; a test only fixes finitely many of them.", "anchors": [{"file": "dessia_common/schemas/core.py", "symbols": ["Schema.default_dict", "Schema.default_value", "ClassSchema.default_dict", "object_default", "MeasureProperty.default_value"]}]}
{"id": "C133", "title": "The descriptions of parameters are those of the docstring", "statement": "The description of a class is the text of its docstring before the parameters, and that of a parameter the text written after its name in the docstring; those of other parameters do not depend on it.", "quantifier": "all docstrings, all numbers of parameters", "why_tests_cant": "The claim ranges over values of unbounded depth and size; a test only fixes finitely many of them.", "anchors": [{"file": "dessia_common/schemas/core.py", "symbols": ["parse_docstring", "parse_attribute", "_check_docstring"]}]}
{"id": "C134", "title": "The layout of a workflow places each block after those on which it depends", "statement": "For each workflow without cycles, layout returns graphs made of columns such that each block and each non-block variable is in exactly one column, no column is empty, and for each pipe the block or variable at its beginning is in an earlier column than the block at its end, in the same graph.", "quantifier": "all workflows, whatever their blocks and pipes, and all orders in which networkx enumerates nodes and parts", "why_tests_cant": "The claim ranges over values of unbounded depth and size; a test only fixes finitely many of them.", "anchors": [{"file": "dessia_common/workflow/core.py", "symbols": ["Workflow.layout", "Workflow.graph_columns", "Workflow.layout_graph"]}, {"file": "dessia_common/graph.py", "symbols": ["get_column_by_node", "get_paths_from_to", "get_longest_path"]}]}
{"id": "C135", "title": "The displays of an object are those of its decorated methods", "statement": "The display settings of a class list exactly one display for each method decorated as a view, under the selector of the decorator or the name of the method, with the type and flags of the decorator, plus a markdown and a structure tree; asking a display shows the result of its method, and a failing method is told by a traceback.", "quantifier": "all classes, decorators, selectors and results of methods", "why_tests_cant": "The claim ranges over values of unbounded depth and size; a test only fixes finitely many of them.", "anchors": [{"file": "dessia_common/core.py", "symbols": ["DessiaObject.display_settings", "DessiaObject._display_from_selector", "DessiaObject._displays"]}, {"file": "dessia_common/decorators.py", "symbols": ["get_decorated_methods", "plot_data_view", "markdown_view", "cad_view", "picture_view"]}]}
{"id": "C136", "title": "The exports of an object call its decorated methods", "statement": "Exporting an object under the selector of an export writes in one file, with the extension of this export, what its method writes; the archive of an object holds one entry, which can be read under its name, for each of its exports, and is what to_zip_stream returns.", "quantifier": "all classes, selectors, paths and contents", "why_tests_cant": "The claim ranges over values of unbounded depth and size; a test only fixes finitely many of them.", "anchors": [{"file": "dessia_common/core.py", "symbols": ["DessiaObject._export_formats", "DessiaObject.save_export_to_file", "DessiaObject.zip_settings", "DessiaObject.to_zip_stream"]}, {"file": "dessia_common/decorators.py", "symbols": ["export_decorator", "export_docx"]}, {"file": "dessia_common/files.py", "symbols": ["generate_archive"]}]}
{"id": "C137", "title": "The checks of the platform tell what fails", "statement": "check_platform tells, for each object, whether it is the same once written and read again, whether its copy is the same, whether its dictionary can be stored, and whether its displays and schemas are computed; is_valid holds if and only if all hold.", "quantifier": "all objects, whatever their methods return or raise, and all levels", "why_tests_cant": "The claim ranges over values of unbounded depth and size; a test only fixes finitely many of them.", "anchors": [{"file": "dessia_common/core.py", "symbols": ["DessiaObject.check_platform", "DessiaObject.is_valid", "DessiaObject.check_list"]}, {"file": "dessia_common/checks.py", "symbols": ["check_serialization_process", "check_copy", "check_displays", "check_schemas"]}]}
{"id": "C138", "title": "The displays offered by a run show what their blocks give", "statement": "The display settings of a workflow run are its documentation, then one per display block of the workflow; the documentation is loaded by default exactly when no block is. Asking the run a display by its selector, whatever displays and exports were asked before, gives the value which the block of this selector computes from the values of the run, with the type of the block and the path of the displayed object; the list of all displays gives each of them in order.", "quantifier": "all workflows, inputs, runs, blocks and sequences of displays and exports asked before", "why_tests_cant": "The claim ranges over values of unbounded depth and size; a test only fixes finitely many of them.", "anchors": [{"file": "dessia_common/workflow/core.py", "symbols": ["Workflow.blocks_display_settings", "WorkflowState.display_settings", "WorkflowRun.display_settings", "WorkflowRun._display_settings_from_selector", "WorkflowState.block_display"]}, {"file": "dessia_common/workflow/blocks.py", "symbols": ["Display._display_settings"]}, {"file": "dessia_common/core.py", "symbols": ["DessiaObject._display_from_selector", "DessiaObject._displays"]}]}
{"id": "C139", "title": "The exports offered by a run write what their blocks give", "statement": "A workflow run offers the exports of every object, one export for each export block, and its script, under distinct selectors. The archive of the run holds the file which each export block computes from the values of the run, under its name; saving an export to a file writes this content.", "quantifier": "all workflows, inputs, runs, blocks and sequences of displays and exports asked before", "why_tests_cant": "The claim ranges over values of unbounded depth and size; a test only fixes finitely many of them.", "anchors": [{"file": "dessia_common/workflow/core.py", "symbols": ["Workflow.blocks_export_formats", "WorkflowState._export_formats", "WorkflowState.export_format_from_selector", "WorkflowState.export", "WorkflowRun._export_formats", "WorkflowRun.zip_settings"]}, {"file": "dessia_common/workflow/blocks.py", "symbols": ["Export._export_format", "Archive._export_format"]}, {"file": "dessia_common/core.py", "symbols": ["DessiaObject.save_export_to_file"]}]}
{"id": "C140", "title": "An object saved in a file is read back from it", "statement": "If an object is saved with save_to_file under a name, then the file of this name, with the extension .json if it was missing, exists, and from_json on it returns an object of the same class, equal to the one which was saved. No other file changes. An object saved in a stream is read back from this stream.", "quantifier": "every object made of supported values, every name, every prior content of the disk, every stream", "why_tests_cant": "The claim ranges over values of unbounded depth and size; a test only fixes finitely many of them.", "anchors": [{"file": "dessia_common/core.py", "symbols": ["DessiaObject.save_to_file", "DessiaObject.from_json", "DessiaObject.save_to_stream", "DessiaObject.from_json_stream", "DessiaObject.to_dict"]}]}
{"id": "C141", "title": "A failed save keeps the former file", "statement": "If the saving of an object in a file fails, the file which had this name before, and every other file, can still be read with the same content.", "quantifier": "every object, every error during the saving, every prior content of the disk", "why_tests_cant": "The claim ranges over values of unbounded depth and size; a test only fixes finitely many of them.", "anchors": [{"file": "dessia_common/core.py", "symbols": ["DessiaObject.save_to_file"]}]}
{"id": "C142", "title": "The Word document of a text shows each of its lines", "statement": "The Word document made of a markdown text begins with the headings of the text, then shows each of its lines which is not blank, in order: the headings at their level, the rows of a table in one table with their cells, the other lines as paragraphs. The file is written with the extension .docx, added if it was missing.", "quantifier": "every markdown text, every file name", "why_tests_cant": "The claim ranges over values of unbounded depth and size; a test only fixes finitely many of them.", "anchors": [{"file": "dessia_common/document_generator.py", "symbols": ["DocxWriter.from_markdown", "DocxWriter.parse_markdown", "DocxWriter.add_headings", "DocxWriter.add_paragraph_as_heading", "Heading.from_markdown", "Table.add_to_document"]}, {"file": "dessia_common/core.py", "symbols": ["DessiaObject.to_docx"]}]}
{"id": "C143", "title": "A regular tree generator gives each valid solution once", "statement": "generate() of a regular decision tree generator ends, and yields the model of each vector of choices (one for each level) all of whose beginnings are valid, exactly once and in the order of the vectors; nothing else is yielded.", "quantifier": "all numbers, at least one, of choices per level, all validity methods and models", "why_tests_cant": "The claim ranges over values of unbounded depth and size; a test only fixes finitely many of them.", "anchors": [{"file": "dessia_common/generation.py", "symbols": ["RegularDecisionTreeGenerator.generate", "RegularDecisionTreeGenerator.__init__"]}]}
{"id": "C144", "title": "A decision tree generator gives each valid solution once", "statement": "generate() of a decision tree generator, whose number of choices depends on the model reached, yields the model of each valid vector without further choices exactly once and in order, and ends if no sequence of valid choices goes on for ever.", "quantifier": "all validity methods, numbers of choices and models, also infinite trees for what is yielded", "why_tests_cant": "The claim ranges over values of unbounded depth and size; a test only fixes finitely many of them.", "anchors": [{"file": "dessia_common/generation.py", "symbols": ["DecisionTreeGenerator.generate", "DecisionTreeGenerator.__init__"]}]}
{"id": "C145", "title": "A generator can be used again", "statement": "Calling generate() again on a generator gives the same solutions as the first time.", "quantifier": "all generators, after a complete or an interrupted generation", "why_tests_cant": "The claim ranges over values of unbounded depth and size; a test only fixes finitely many of them.", "anchors": [{"file": "dessia_common/generation.py", "symbols": ["RegularDecisionTreeGenerator.generate", "DecisionTreeGenerator.generate"]}]}
{"id": "C146", "title": "The data shown for a graph tells its nodes and edges", "statement": "The visjs data of a graph has one item for each node, with distinct ids, telling the node, and one item for each edge between the ids of its ends, with an arrow if and only if the graph is directed.", "quantifier": "all graphs, with any attributes on nodes and edges", "why_tests_cant": "The claim ranges over values of unbounded depth and size; a test only fixes finitely many of them.", "anchors": [{"file": "dessia_common/displays.py", "symbols": ["networkx_to_visjs_data"]}]}
{"id": "C147", "title": "is_serializable tells which values can be written", "statement": "is_serializable answers True exactly for the values which serialize to JSON data, and False for the others; it does not raise.", "quantifier": "all values, nested to any depth", "why_tests_cant": "The claim ranges over values of unbounded depth and size; a test only fixes finitely many of them.", "anchors": [{"file": "dessia_common/serialization.py", "symbols": ["is_serializable", "serialize"]}, {"file": "dessia_common/utils/types.py", "symbols": ["is_jsonable"]}]}
{"id": "C148", "title": "The statistics of a dataset are those of its attributes", "statement": "mean() and variances() of a dataset give, for each common attribute in order, the mean and the variance of its values; covariance_matrix() gives the covariance of each pair of attributes, and its diagonal is variances().", "quantifier": "all datasets, with any number of objects of any classes, with or without cached data", "why_tests_cant": "The claim ranges over values of unbounded depth and size; a test only fixes finitely many of them.", "anchors": [{"file": "dessia_common/datatools/dataset.py", "symbols": ["Dataset.mean", "Dataset.variances", "Dataset.covariance_matrix", "Dataset.matrix"]}]}
{"id": "C149", "title": "The means and distances of clusters are those of their objects", "statement": "mean_clusters() gives one list for each cluster: the means of the attributes of its objects; cluster_distances() gives the distance of each object to the mean of its cluster. The mean of the dataset is the mean of the means of the clusters weighted by their sizes.", "quantifier": "all clustered datasets, labels, orders of enumeration of the labels and distances", "why_tests_cant": "The claim ranges over values of unbounded depth and size; a test only fixes finitely many of them.", "anchors": [{"file": "dessia_common/datatools/cluster.py", "symbols": ["ClusteredDataset.mean_clusters", "ClusteredDataset.cluster_distances", "ClusteredDataset.clustered_sublists"]}]}
{"id": "C150", "title": "The displays offered at a step need no input of a later step", "statement": "displayable_display_settings gives one list of displays per step, in order. At a step, a display of an output of a block is offered exactly when computing this output needs no input placed in a later step. So the values asked for at this step and at the steps before it, with the locked inputs, determine what is displayed.", "quantifier": "all well-formed workflows, all placements of inputs in steps, all offers of displays by objects", "why_tests_cant": "The claim ranges over values of unbounded depth and size; a test only fixes finitely many of them.", "anchors": [{"file": "dessia_common/workflow/core.py", "symbols": ["Workflow.displayable_display_settings", "Workflow.displayable_outputs", "Workflow.upstream_inputs"]}]}
{"id": "C151", "title": "The display of a step shows the value which the inputs given so far determine", "statement": "compute_step_display shows the value which the values given by the user and the defaults of other inputs determine for the output of the display, raises when they determine none, and gives nothing for a step without display. Once a display is added to a step on an output, two users who agree on the inputs of this step and of the steps before it are shown the same.", "quantifier": "all well-formed workflows, block functions, steps, values given by the user, iteration orders of sets", "why_tests_cant": "The claim ranges over values of unbounded depth and size; a test only fixes finitely many of them.", "anchors": [{"file": "dessia_common/workflow/core.py", "symbols": ["Workflow.compute_step_display", "Workflow.add_step_display", "WorkflowState.evaluate_branch"]}]}
{"id": "C152", "title": "The progress told to the callback of a run never exceeds one nor goes back, and ends at one", "statement": "While a workflow runs, the values handed to the progress callback never exceed one, never decrease, and the last one is one when the run completes.", "quantifier": "all workflows, input values, callbacks and blocks that themselves tell progress while they run", "why_tests_cant": "The claim ranges over values of unbounded depth and size; a test only fixes finitely many of them.", "anchors": [{"file": "dessia_common/workflow/core.py", "symbols": ["Workflow.run", "WorkflowState.continue_run", "WorkflowState.block_evaluation", "WorkflowState._evaluate_block"]}]}
{"id": "C153", "title": "A completed run can be run again", "statement": "Calling run_again on a completed run runs its workflow with the same input values and gives the same outcome as the run.", "quantifier": "all workflows, input values and callbacks", "why_tests_cant": "The claim ranges over values of unbounded depth and size; a test only fixes finitely many of them.", "anchors": [{"file": "dessia_common/workflow/core.py", "symbols": ["WorkflowRun.run_again", "Workflow.run"]}]}
{"id": "C154", "title": "A block that calls a function has one input for each of its parameters", "statement": "A block built on a class, a class method, a static method or a method has one input for each parameter of what it calls, in order, with its name, its type and its default value.", "quantifier": "all signatures Python accepts and all type hints", "why_tests_cant": "The claim ranges over values of unbounded depth and size; a test only fixes finitely many of them.", "anchors": [{"file": "dessia_common/workflow/blocks.py", "symbols": ["_method_inputs", "InstantiateModel.__init__", "ClassMethod.__init__", "ModelMethod.__init__"]}]}
{"id": "C155", "title": "A block that calls a function calls it once, with the values of its inputs", "statement": "When a block built on a class, a class method, a static method, a method or a display is evaluated, what it calls is run exactly once, each parameter receiving the value of the input of its name and the others their default, and the block gives what it returns or raises what it raises.", "quantifier": "all signatures, values of inputs, callbacks, program states and bodies, which may change the state, return or raise", "why_tests_cant": "The claim ranges over values of unbounded depth and size; a test only fixes finitely many of them.", "anchors": [{"file": "dessia_common/workflow/blocks.py", "symbols": ["InstantiateModel.evaluate", "ClassMethod.evaluate", "ModelMethod.evaluate", "Display.evaluate"]}]}
{"id": "C156", "title": "No object lies below a Pareto frontier", "statement": "pareto_frontiers gives one frontier for each pair of costs; each one goes from the smallest to the greatest value of the first cost, and no object of the dataset is strictly better than a point of the frontier for both costs of the pair.", "quantifier": "all datasets and cost matrices with any number of objects and costs, all scales of the costs", "why_tests_cant": "The claim ranges over values of unbounded depth and size; a test only fixes finitely many of them.", "anchors": [{"file": "dessia_common/datatools/dataset.py", "symbols": ["Dataset.pareto_frontiers", "Dataset._pareto_frontier_2d"]}]}
{"id": "C157", "title": "A file read from the disk or a stream, or copied, holds the same content under the same name and kind", "statement": "from_file gives a file object with the name and the content of the file on the disk; from_stream gives one with the name, the kind and the content of the stream; copy gives an equal object independent of the first; two file objects are equal exactly when they have the same content.", "quantifier": "all contents, names, encodings and positions of the streams", "why_tests_cant": "The claim ranges over values of unbounded depth and size; a test only fixes finitely many of them.", "anchors": [{"file": "dessia_common/files.py", "symbols": ["BinaryFile.copy", "BinaryFile.from_file", "BinaryFile.from_stream", "BinaryFile.__eq__", "StringFile.copy", "StringFile.from_file", "StringFile.from_stream", "StringFile.__eq__"]}]}
{"id": "C158", "title": "Writing the script of a workflow or of a run leaves exactly the script", "statement": "save_script_to_stream leaves in the stream the script of the workflow or of the run and nothing else; save_script_to_file leaves it in a file named after the argument with the extension .py; when the script cannot be computed, nothing is changed.", "quantifier": "all streams, with any earlier content and position, all file names, all scripts and failures of their computation", "why_tests_cant": "The claim ranges over values of unbounded depth and size; a test only fixes finitely many of them.", "anchors": [{"file": "dessia_common/workflow/core.py", "symbols": ["Workflow.save_script_to_stream", "Workflow.save_script_to_file", "WorkflowRun.save_script_to_stream", "WorkflowRun.save_script_to_file"]}]}
{"id": "C159", "title": "Giving the inputs to a state, then continuing it, gives the result of the run with these values", "statement": "add_input_value, add_several_input_values and add_block_input_values record the values given, the last one given for an input being kept; giving the inputs of a block raises a ValueError exactly when an input of it is neither given nor already valued; continuing a state that got the values of a run one after the other gives the result of that run.", "quantifier": "all workflows, inputs, orders of giving and values", "why_tests_cant": "The claim ranges over values of unbounded depth and size; a test only fixes finitely many of them.", "anchors": [{"file": "dessia_common/workflow/core.py", "symbols": ["WorkflowState.add_input_value", "WorkflowState.add_several_input_values", "WorkflowState.add_block_input_values", "Workflow.block_inputs_global_indices"]}]}
{"id": "C160", "title": "Clustering a dataset labels each of its objects and, when scaled, does not depend on units", "statement": "The clustered dataset made by a clustering algorithm holds the objects of the dataset, in order, with one label each, those the algorithm gives to their rows of values; with scaling, each attribute is brought to mean 0 and variance 1 first, so that the labels do not depend on the units of the attributes.", "quantifier": "all datasets, clustering algorithms giving one label for each row, units (positive factors and origins) and names", "why_tests_cant": "The claim ranges over values of unbounded depth and size; a test only fixes finitely many of them.", "anchors": [{"file": "dessia_common/datatools/cluster.py", "symbols": ["ClusteredDataset.from_agglomerative_clustering", "ClusteredDataset.from_kmeans", "ClusteredDataset.from_dbscan", "ClusteredDataset.fit_cluster", "ClusteredDataset.list_agglomerative_clustering"]}, {"file": "dessia_common/datatools/dataset.py", "symbols": ["Dataset._scale_data"]}]}
{"id": "C161", "title": "Distances and singular values of a dataset are those of its rows of values", "statement": "distance_matrix has one row and one column for each object, in order, and holds the distance between the values of each two objects, the Euclidean one by default; singular_values are not negative, in decreasing order, and sum to 1, whatever the units of the attributes; the points to plot are these, numbered from 1.", "quantifier": "all datasets, distance methods and powers", "why_tests_cant": "The claim ranges over values of unbounded depth and size; a test only fixes finitely many of them.", "anchors": [{"file": "dessia_common/datatools/dataset.py", "symbols": ["Dataset.distance_matrix", "Dataset.singular_values", "Dataset._scale_data"]}]}
{"id": "C162", "title": "Plots of a dataset show all its objects and each pair of its attributes", "statement": "The samples of a dataset stand for its objects, one each, in order, with their values, their path and their name; the scatter matrix of n attributes has n times n plots, that of each attribute against each other and the spread of its values on the diagonal; the parallel plot shows the samples along axes that are attributes; each sample is in one point family.", "quantifier": "all datasets, labels and names of objects", "why_tests_cant": "The claim ranges over values of unbounded depth and size; a test only fixes finitely many of them.", "anchors": [{"file": "dessia_common/datatools/dataset.py", "symbols": ["Dataset.plot_scatter_matrix", "Dataset.plot_parallel_plot", "Dataset.plot_histogram", "Dataset._to_samples", "Dataset._object_to_sample", "Dataset._build_multiplot"]}, {"file": "dessia_common/datatools/cluster.py", "symbols": ["ClusteredDataset._object_to_sample", "ClusteredDataset._point_families"]}]}
{"id": "C163", "title": "A Word document built piece by piece holds the pieces given, in order", "statement": "Each method of a document writer adds its headings, paragraphs, page breaks, tables, list items or picture at the end of the document, in order, and changes nothing else; paragraphs come after their headings; the cells of a table hold the texts of its rows; header and footer hold the texts of the section, in order, with their alignment; an unknown alignment raises an AttributeError.", "quantifier": "all sequences of calls, headings, paragraphs, tables and sections", "why_tests_cant": "The claim ranges over values of unbounded depth and size; a test only fixes finitely many of them.", "anchors": [{"file": "dessia_common/document_generator.py", "symbols": ["DocxWriter.add_headings", "DocxWriter.add_paragraphs", "DocxWriter.add_page_breaks", "DocxWriter.add_table", "DocxWriter.add_list_items", "DocxWriter.add_picture", "DocxWriter.add_header_footer_picture", "DocxWriter.delete_layout_element", "Table.add_to_document", "Section.add_to_document", "LayoutElement"]}]}
{"id": "C164", "title": "Cutting the final branches of a graph removes them all, and nothing else", "statement": "cut_tree_final_branches gives the graph without the nodes that have exactly one predecessor and lead only to nodes that have exactly one predecessor; the other nodes and the edges between them are kept; of a tree only the root is left.", "quantifier": "all directed graphs", "why_tests_cant": "The claim ranges over values of unbounded depth and size; a test only fixes finitely many of them.", "anchors": [{"file": "dessia_common/graph.py", "symbols": ["cut_tree_final_branches"]}]}
{"id": "C165", "title": "A region of a graph holds the nodes around the given ones", "statement": "extract_region gives the part of the graph that holds the nodes given, those they lead to within the distance and those that lead to them, with all the edges between them; a node that is not in the graph raises a ValueError.", "quantifier": "all directed graphs, nodes and distances", "why_tests_cant": "The claim ranges over values of unbounded depth and size; a test only fixes finitely many of them.", "anchors": [{"file": "dessia_common/graph.py", "symbols": ["extract_region"]}]}
{"id": "C166", "title": "The model an optimization returns is within the bounds and has the cost returned", "statement": "optimize_gradient, optimize_cma and optimize_cma_then_gradient return, when they return a model, the model instantiated from the fixed values and a value of each bounded attribute between its bounds, together with the cost objective gives to that model; both searches together return a cost that is not more than that of the first one, and the second starts from the point the first found; an error of a search is the caller's.", "quantifier": "all problems, bounds, fixed values, costs and results of the searches", "why_tests_cant": "The claim ranges over values of unbounded depth and size; a test only fixes finitely many of them.", "anchors": [{"file": "dessia_common/optimization.py", "symbols": ["InstantiatingModelOptimizer.optimize_gradient", "InstantiatingModelOptimizer.optimize_cma", "InstantiatingModelOptimizer.optimize_cma_then_gradient", "InstantiatingModelOptimizer.objective_from_dimensionless_vector", "InstantiatingModelOptimizer.scipy_bounds", "InstantiatingModelOptimizer.cma_bounds"]}]}
{"id": "C167", "title": "The Mahalanobis distance is a distance, whatever the units of the attributes", "statement": "mahalanobis_distance is never negative, is the same both ways, is 0 from a point to itself, no detour is shorter, and it is the same when the attributes are given in other units; points at distance 0 are the same when no attribute is a combination of the others; the covariance matrix of data can be given to it.", "quantifier": "all points, covariance matrices, data and units", "why_tests_cant": "The claim ranges over values of unbounded depth and size; a test only fixes finitely many of them.", "anchors": [{"file": "dessia_common/datatools/metrics.py", "symbols": ["mahalanobis_distance", "covariance_matrix"]}]}
{"id": "C168", "title": "Statistics on pointers count each use of a class once", "statement": "pointers_analysis returns, for each class, the number of edges of the graph of pointers to a value of this class, and for each two different classes the number of edges from a value of one to a value of the other; edges from the root are not counted, and a class without uses is absent.", "quantifier": "all objects, classes and graphs of pointers", "why_tests_cant": "The claim ranges over values of unbounded depth and size; a test only fixes finitely many of them.", "anchors": [{"file": "dessia_common/serialization.py", "symbols": ["pointers_analysis"]}]}
{"id": "C169", "title": "The methods offered are those that can be called, with the form and defaults of their arguments", "statement": "The method schemas of an object are exactly those of its public methods among the allowed ones, in the order of dir; each has one form entry for each argument of the method, with its title, type and default, and requires those without default; the default dictionary of a method has one entry for each argument and can be given back as the arguments of a call; a method that is not offered is a KeyError; one method that cannot be described does not prevent the others from being described.", "quantifier": "every class, every list of allowed methods, every signature and docstring, every method asked for", "why_tests_cant": "The claim ranges over values of unbounded depth and size; a test only fixes finitely many of them.", "anchors": [{"file": "dessia_common/core.py", "symbols": ["DessiaObject.raw_method_schemas", "DessiaObject.method_schemas", "DessiaObject.method_dict"]}, {"file": "dessia_common/schemas/core.py", "symbols": ["MethodSchema"]}]}
{"id": "C170", "title": "A workflow is valid exactly when the types of its pipes agree, and a value is told to have a type exactly when it does", "statement": "is_valid returns True exactly when, for each pipe, the type of the output is the type of the input or a subclass of it, and False otherwise; checking the type of a value returns True exactly when the value has the type, also for None, optional types and generic types.", "quantifier": "every workflow and every assignment of types to its variables, every value and every type", "why_tests_cant": "The claim ranges over values of unbounded depth and size; a test only fixes finitely many of them.", "anchors": [{"file": "dessia_common/workflow/core.py", "symbols": ["Workflow.is_valid", "value_type_check"]}]}
{"id": "C171", "title": "The Markdown of an object has one row for each attribute, with its name, type and value", "statement": "The Markdown of an object says its name and its class and holds a table that a Markdown reader reads as the titles and one row for each attribute in order, with the name of the attribute, the name of its type and its value, each cut at the print limit; that of a dataset says how many elements of which classes it holds and has one row of values for each element; each heading of a table of contents links to its own section.", "quantifier": "every object, every value of its attributes, every dataset, every list of headings", "why_tests_cant": "The claim ranges over values of unbounded depth and size; a test only fixes finitely many of them.", "anchors": [{"file": "dessia_common/exports.py", "symbols": ["MarkdownWriter"]}, {"file": "dessia_common/core.py", "symbols": ["DessiaObject.to_markdown"]}, {"file": "dessia_common/datatools/dataset.py", "symbols": ["Dataset.to_markdown"]}]}
{"id": "C172", "title": "A type written as a string is read back as the same type by deserialize_typing", "statement": "For every type annotation, deserialize_typing(serialize_typing(annotation)) is this annotation.", "quantifier": "every builtin, class, and generic type of any depth", "why_tests_cant": "The claim ranges over values of unbounded depth and size; a test only fixes finitely many of them.", "anchors": [{"file": "dessia_common/utils/types.py", "symbols": ["serialize_typing", "type_from_argname", "deserialize_typing", "deserialize_tuple_typing", "deserialize_builtin_typing", "deserialize_file_typing", "deserialize_method_typing"]}]}
{"id": "C173", "title": "The description of an input of a workflow is that of the parameter it fills", "statement": "In the schema of a workflow, the description of each input is what the documentation of the class or of the method called by its block says of the parameter that the input fills, also when the block runs a workflow.", "quantifier": "every workflow, every depth of workflows in blocks, every docstring, every input", "why_tests_cant": "The claim ranges over values of unbounded depth and size; a test only fixes finitely many of them.", "anchors": [{"file": "dessia_common/workflow/core.py", "symbols": ["Block._docstring", "Block.parse_input_doc", "Workflow._docstring", "Workflow.input_schema"]}, {"file": "dessia_common/workflow/blocks.py", "symbols": ["InstantiateModel._docstring", "ClassMethod._docstring", "ModelMethod._docstring", "WorkflowBlock._docstring", "ForEach._docstring"]}]}
{"id": "C174", "title": "The result of a run depends only on what leads to the output", "statement": "When the blocks, the pipes and the input values from which the output of a workflow is computed are in another workflow with the same output, and all its inputs have values, a run of the second succeeds if a run of the first does, with the same result.  In particular the values of the other inputs do not matter, and adding blocks which do not feed the existing ones changes no result.", "quantifier": "every pair of well-formed workflows with a common part of any size, every list of values given to their inputs and every order of their sets", "why_tests_cant": "The claim ranges over values of unbounded depth and size; a test only fixes finitely many of them.", "anchors": [{"file": "dessia_common/workflow/core.py", "symbols": ["Workflow.run", "Workflow.runtime_blocks", "WorkflowState.continue_run", "WorkflowState._evaluate_block", "Workflow.upstream_blocks"]}]}
{"id": "C175", "title": "The order in which a workflow is written does not matter", "statement": "When the blocks and the pipes of a workflow are listed in another order, or its input values are given in another order, with the same value for each input, the runs succeed together, and with the same result.", "quantifier": "every well-formed workflow, every permutation of its blocks, of its pipes and of the values given to its inputs, and every order of its sets", "why_tests_cant": "The claim ranges over values of unbounded depth and size; a test only fixes finitely many of them.", "anchors": [{"file": "dessia_common/workflow/core.py", "symbols": ["Workflow.__init__", "Workflow.run", "Workflow.input_values", "WorkflowState.continue_run"]}]}
{"id": "C176", "title": "Locking an input or giving it a default value is giving it this value", "statement": "A run of a workflow whose input was locked with a value is a run of the workflow before, with this value given to the input, whatever the user gives to it.  A run of a workflow whose input received a default value is a run with this value given, when the user gives none.  They succeed together, and with the same result.", "quantifier": "every well-formed workflow, every one of its inputs which is not locked, every value and every list of other values", "why_tests_cant": "The claim ranges over values of unbounded depth and size; a test only fixes finitely many of them.", "anchors": [{"file": "dessia_common/workflow/core.py", "symbols": ["Variable.lock", "Variable.locked", "Workflow.input_values", "Workflow.run", "Workflow.set_input_default"]}]}
{"id": "C177", "title": "Filters can be reordered, chained, applied by parts and negated", "statement": "Filtering a list made of two parts is filtering each part.  The order of the objects does not change which are kept, and neither the order nor the repetitions of the filters matter.  Filters joined by 'and' can be applied one list after the other.  A filter and the filter with the opposite comparison share out the objects: each is kept by exactly one of them.", "quantifier": "every list of filters, every logical operator and every list of objects", "why_tests_cant": "The claim ranges over values of unbounded depth and size; a test only fixes finitely many of them.", "anchors": [{"file": "dessia_common/core.py", "symbols": ["FiltersList.apply", "FiltersList.combine_booleans_lists", "DessiaFilter.get_booleans_index", "DessiaFilter.apply"]}]}
{"id": "C178", "title": "A Pareto front does not depend on the order of the points nor on units", "statement": "The front of a list of points holds each point which no point dominates, once.  It does not depend on the order of the points nor on their repetitions, nor on an increasing change of the units of each cost.  The front of a front is the whole of it.  Adding a point which is dominated by, or equal to, a point of the list changes nothing.", "quantifier": "every table of costs with any number of points and of costs, every scale which vanishes only on constant columns, every increasing change of units", "why_tests_cant": "The claim ranges over values of unbounded depth and size; a test only fixes finitely many of them.", "anchors": [{"file": "dessia_common/datatools/dataset.py", "symbols": ["Dataset.pareto_indexes", "Dataset.pareto_points"]}]}
{"id": "C179", "title": "Saving, loading and saving again gives the same document", "statement": "For an object whose strings name nothing importable, whose dictionaries hold no reserved key and whose attributes are the arguments of its constructor, the document it is saved to is also the document the loaded object is saved to, however many rounds of saving and loading are made; from the first loaded object on, the loaded objects are all the same. A deep copy is saved to the same document as its original, when no two different objects inside the original are equal.", "quantifier": "all such objects, of any depth, and any number of rounds", "why_tests_cant": "The claim ranges over values of unbounded depth and size; a test only fixes finitely many of them.", "anchors": [{"file": "dessia_common/serialization.py", "symbols": ["serialize", "dict_to_object"]}, {"file": "dessia_common/core.py", "symbols": ["DessiaObject.to_dict", "DessiaObject.dict_to_object", "DessiaObject.copy"]}, {"file": "dessia_common/utils/copy.py", "symbols": ["deepcopy_value"]}]}
{"id": "C180", "title": "The vector of an object holds the values of the numeric features of its class", "statement": "Without a declared list, the features of a class are exactly its numeric class attributes (its own and inherited, names between double underscores left out) and the parameters of its constructor annotated with a numeric class, without those of DessiaObject, each once; a declared list is returned as it is. The vector of an object holds, in the order of its features, the value read on the object under each of these names, and the value standing at the place of a feature does not depend on the order sets take in the run.", "quantifier": "all classes, objects and orders of sets", "why_tests_cant": "The claim ranges over values of unbounded depth and size; a test only fixes finitely many of them.", "anchors": [{"file": "dessia_common/core.py", "symbols": ["DessiaObject.to_vector", "DessiaObject.vector_features", "get_attribute_names"]}]}
{"id": "C181", "title": "Filters printed alike, or equal, keep the same objects", "statement": "If two filters are printed as the same text, they accept the same objects and fail on the same objects, however much room is given to their attributes and bounds; if two lists of filters are printed as the same text, they combine with the same operator and keep the same objects of every list. Equal filters have equal hashes, are printed alike and accept the same objects.", "quantifier": "all filters, lists of filters, attributes without blanks or operator characters, bounds and objects", "why_tests_cant": "The claim ranges over values of unbounded depth and size; a test only fixes finitely many of them.", "anchors": [{"file": "dessia_common/core.py", "symbols": ["DessiaFilter.__str__", "DessiaFilter.__eq__", "DessiaFilter.__hash__", "FiltersList.__str__", "FiltersList.apply"]}]}
{"id": "C182", "title": "Parts of a dataset make it up", "statement": "Cutting a non-empty dataset at any place k, in range or not, counted from the start or from the end, gives two datasets d[:k] and d[k:] whose objects, matrix rows and labels, one after the other, are those of d; their sum has the objects of d in the same order. d[::-1][::-1] is d. A mask and its opposite share out the objects, each with its row and label. Selecting again in a selection is selecting once with the combined key: d[a:][b:] is d[a+b:], and a mask in a masked dataset is the conjunction of the masks.", "quantifier": "every dataset with any objects, cached matrix and labels, every cut position, every pair of offsets and every pair of masks", "why_tests_cant": "The claim ranges over values of unbounded depth and size; a test only fixes finitely many of them.", "anchors": [{"file": "dessia_common/datatools/dataset.py", "symbols": ["Dataset.__getitem__", "Dataset.__add__", "Dataset._pick_from_slice", "Dataset._pick_from_boolist"]}, {"file": "dessia_common/datatools/cluster.py", "symbols": ["ClusteredDataset._pick_from_slice", "ClusteredDataset._pick_from_boolist"]}]}
{"id": "C183", "title": "Reading and writing by path follow the laws of a place", "statement": "Reading #/p/q is reading #/q in what is read at #/p. Writing twice at a path is writing the second value only. Writing at a path what is read there changes nothing. Writing at two places on different branches gives the same in both orders.", "quantifier": "every document without references to evaluate, every path with at least one segment, every pair of values written", "why_tests_cant": "The claim ranges over values of unbounded depth and size; a test only fixes finitely many of them.", "anchors": [{"file": "dessia_common/utils/helpers.py", "symbols": ["get_in_object_from_path", "set_in_object_from_path", "extract_segment_from_object"]}, {"file": "dessia_common/core.py", "symbols": ["DessiaObject._get_from_path"]}]}
{"id": "C184", "title": "The order before a sort does not matter, nor does sorting twice", "statement": "Two datasets with the same objects in different orders have the same sequence of values once sorted by the same key, and the same sequence of objects if no two objects have the same value. Sorting again by the same attribute keeps this sequence. Sorting in descending order gives the ascending sequence reversed. Objects with equal values may come in any order.", "quantifier": "every coherent dataset, every permutation of its objects, every key whose values can be read and every argsort numpy may provide", "why_tests_cant": "The claim ranges over values of unbounded depth and size; a test only fixes finitely many of them.", "anchors": [{"file": "dessia_common/datatools/dataset.py", "symbols": ["Dataset.sort", "Dataset.attribute_values", "Dataset.column_values"]}]}
{"id": "C185", "title": "The order in which attributes and entries were set does not matter", "statement": "Two objects that differ only by the order in which their attributes were set and the entries of their dictionaries were added, at any depth, have equal data and the same hash and are ==; to_dict without pointers gives, for both or for neither, documents that differ only by the order of their entries; and documents without references that differ only by that order are loaded by dict_to_object as objects that differ only by that order.", "quantifier": "every value and class configuration, every reordering of the attributes and entries at any depth, and every reordering of the entries of a document without references", "why_tests_cant": "The claim ranges over values of unbounded depth and size; a test only fixes finitely many of them.", "anchors": [{"file": "dessia_common/core.py", "symbols": ["DessiaObject", "DessiaObject.__eq__", "DessiaObject.__hash__", "DessiaObject._data_eq", "data_eq"]}, {"file": "dessia_common/serialization.py", "symbols": ["serialize", "SerializableObject.to_dict", "dict_to_object", "SerializableObject.dict_to_object"]}, {"file": "dessia_common/utils/diff.py", "symbols": ["choose_hash"]}]}
{"id": "C186", "title": "A workflow used as a block gives what its own blocks would give in its place", "statement": "Take a workflow with a block for another workflow (WorkflowBlock), and the workflow one gets by putting the blocks and pipes of the other in its place, its inputs taking the default values of the inputs of the block. With the same values of the inputs, if the first gives a result then so does the second, and it is the same; if the output of the other workflow needs all its inputs, then also conversely. So a part of a workflow can be made into a workflow of its own, or the reverse, without changing results.", "quantifier": "all pairs of well formed workflows with distinct variables, all functions of their blocks, all values given to the inputs, all orders of the sets of blocks, any nesting (the blocks around, or inside, may be for workflows again)", "why_tests_cant": "The claim ranges over values of unbounded depth and size; a test only fixes finitely many of them.", "anchors": [{"file": "dessia_common/workflow/blocks.py", "symbols": ["WorkflowBlock.__init__", "WorkflowBlock.evaluate"]}, {"file": "dessia_common/workflow/core.py", "symbols": ["Workflow.run", "WorkflowState.continue_run", "WorkflowState._evaluate_block"]}]}
{"id": "C187", "title": "A part of a workflow can be replaced by what it gives", "statement": "Cutting a pipe and giving to its end the value that goes through it does not change the result of a run. Replacing blocks by others with the same variables, which give the same on the values that their inputs get in this run, does not change it either, whatever they do on other values. In both cases one run gives a result exactly if the other does.", "quantifier": "all well formed workflows, all their pipes and blocks, all functions of blocks, all values given to the inputs, all orders of the sets of blocks", "why_tests_cant": "The claim ranges over values of unbounded depth and size; a test only fixes finitely many of them.", "anchors": [{"file": "dessia_common/workflow/core.py", "symbols": ["Workflow.run", "Workflow.__init__", "WorkflowState.continue_run", "WorkflowState.activate_inputs", "WorkflowState._activate_pipe", "WorkflowState._evaluate_block"]}]}
{"id": "C188", "title": "The variables of a workflow matter only by how they are connected", "statement": "Replacing each variable of a workflow by another one, different ones for different variables, with the same default values and locks, keeps the order of its inputs, and with the same values given by index a run gives a result exactly if the other does, and the same.", "quantifier": "all well formed workflows, all injective replacements of their variables, all values given to the inputs, all orders of the sets of blocks", "why_tests_cant": "The claim ranges over values of unbounded depth and size; a test only fixes finitely many of them.", "anchors": [{"file": "dessia_common/workflow/core.py", "symbols": ["Workflow.run", "Workflow.__init__", "Workflow.handle_pipe", "Workflow.handle_block", "WorkflowState.continue_run"]}]}
{"id": "C189", "title": "A ForEach block runs its workflow on each element, and two in a row are one", "statement": "A ForEach block gives the list of the results of the runs of its workflow, one for each element of the iterated input in order, the other inputs being the same in all of them; it gives a result exactly if each of these runs does. Its results on a list given by parts are the results on the parts one after the other; reordering the elements reorders the results, and there are as many results as elements. Two ForEach blocks in a row, the second one on the results of the first one, can be replaced by one ForEach block on the workflow of the two in a row: runs give a result for both or for neither, and the same.", "quantifier": "all workflows and functions of their blocks, all lists of elements and other inputs, all places of the iterated inputs, all workflows around, all orders of the sets of blocks", "why_tests_cant": "The claim ranges over values of unbounded depth and size; a test only fixes finitely many of them.", "anchors": [{"file": "dessia_common/workflow/blocks.py", "symbols": ["ForEach.__init__", "ForEach.evaluate", "WorkflowBlock.evaluate"]}, {"file": "dessia_common/workflow/core.py", "symbols": ["Workflow.run", "WorkflowState.continue_run"]}]}
{"id": "C190", "title": "Matches of types can be chained", "statement": "If the first type matches the second and the second matches the third by typematch, then the first matches the third; so an output may be plugged wherever a wider type than a matching one is accepted. On classes, Any, lists, dictionaries and tuples of given lengths, typematch tells exactly whether the second type is wider, argument by argument.", "quantifier": "all types and all classes with their subclass relation", "why_tests_cant": "The claim ranges over values of unbounded depth and size; a test only fixes finitely many of them.", "anchors": [{"file": "dessia_common/utils/types.py", "symbols": ["typematch", "complex_first_type_match", "heal_type", "particular_typematches"]}]}
{"id": "C191", "title": "A change at one place shows only at this place in a diff", "statement": "If two values differ only by what is at one place, at any depth, their diff is the diff of what is at this place, with the path of this place: nothing else is told, and nothing is lost.", "quantifier": "all pairs of values that differ at one place, all paths to this place through dictionaries, lists, tuples and objects, all values at it", "why_tests_cant": "The claim ranges over values of unbounded depth and size; a test only fixes finitely many of them.", "anchors": [{"file": "dessia_common/utils/diff.py", "symbols": ["diff", "dict_diff", "sequence_diff", "Diff"]}]}
{"id": "C192", "title": "Statistics do not depend on the order of the objects and those of a sum follow from those of its parts", "statement": "The means and the variances of a dataset are the same whatever the order of its objects, in particular after a sort; in the sum of two datasets having the same common attributes the mean of an attribute is the mean of the two means weighted by the numbers of objects, and its variance is given by the two variances, the two means and the numbers of objects.", "quantifier": "all datasets whose caches agree with their objects, all reorderings of their objects, all sums of two datasets which are not empty", "why_tests_cant": "The claim ranges over values of unbounded depth and size; a test only fixes finitely many of them.", "anchors": [{"file": "dessia_common/datatools/dataset.py", "symbols": ["Dataset.mean", "Dataset.variances", "Dataset.sort", "Dataset.__add__"]}, {"file": "dessia_common/datatools/metrics.py", "symbols": ["mean", "variance"]}]}
{"id": "C193", "title": "Exchanging two values exchanges the sides of their diff", "statement": "The diff of a second value with a first one tells the same paths as the diff of the first with the second, with the two values of each entry exchanged, and what it tells missing on one side is missing on the other.", "quantifier": "all pairs of values, of any depth", "why_tests_cant": "The claim ranges over values of unbounded depth and size; a test only fixes finitely many of them.", "anchors": [{"file": "dessia_common/utils/diff.py", "symbols": ["diff", "dict_diff", "sequence_diff", "Diff"]}]}
{"id": "C194", "title": "A new block has the ports which its arguments announce", "statement": "A block made with a number of elements has that many inputs, numbered in order without gap; an Archive has one input per export and the name of the file; an Unpacker has one output per index; a ForEach has one input per input of its workflow block, the one iterated over being free and the others keeping their type, value and lock; the ports of a new block have no label, are at the origin, no output has a value, and the names of the inputs differ.", "quantifier": "all classes of blocks, all arguments of their constructors, all names and positions, all classes and methods of the user", "why_tests_cant": "The claim ranges over values of unbounded depth and size; a test only fixes finitely many of them.", "anchors": [{"file": "dessia_common/workflow/blocks.py", "symbols": ["Sequence", "Concatenate", "Product", "Sum", "ConcatenateStrings", "Archive", "Unpacker", "ForEach", "Export", "ModelMethod", "_method_inputs"]}, {"file": "dessia_common/workflow/core.py", "symbols": ["Variable"]}]}
{"id": "C195", "title": "The dict of a block tells what the block was made with", "statement": "The dict of a block tells its class, its name, its position, and each of its ports at its rank with name, label, type, position, lock and value if there is one; it tells the arguments of the block: the class and name of its method, attribute or view, each of its filters or views at its rank, its numbers and its texts.", "quantifier": "all blocks of all classes whose dict can be written, whatever was done to their ports", "why_tests_cant": "The claim ranges over values of unbounded depth and size; a test only fixes finitely many of them.", "anchors": [{"file": "dessia_common/workflow/core.py", "symbols": ["Block.to_dict", "Variable.to_dict"]}, {"file": "dessia_common/workflow/blocks.py", "symbols": ["MultiPlot.to_dict", "MultiObject.to_dict", "Archive.to_dict"]}, {"file": "dessia_common/typings.py", "symbols": ["MethodType.to_dict", "AttributeType.to_dict"]}]}
{"id": "C196", "title": "Distances and covariances are geometric", "statement": "The Manhattan, Euclidean and Minkowski distances of two points do not change when both points are moved by the same vector or their coordinates are taken in another order, and are multiplied by the absolute value of the factor when the unit changes; the greatest coordinate, the Euclidean norm and the sum of the coordinates compare in this order, and the Minkowski distance decreases with its order; the covariance is proportional to the units, additive, and independent of the order of the observations.", "quantifier": "all points of any dimension, all vectors, factors, reorderings and orders from one on", "why_tests_cant": "The claim ranges over values of unbounded depth and size; a test only fixes finitely many of them.", "anchors": [{"file": "dessia_common/datatools/metrics.py", "symbols": ["manhattan_distance", "euclidian_distance", "minkowski_distance", "l1_norm", "l2_norm", "lp_norm", "inf_norm", "covariance"]}]}
{"id": "C197", "title": "Equality and hash of wholes follow from those of their parts", "statement": "Two values which differ at one place, at any depth below lists, tuples, dictionaries and data attributes of objects, are data-equal exactly when what they hold there is data-equal, and have the same hash if what they hold there has; another value in an attribute which is not data, as a name, or a tuple in the place of a list, changes neither.", "quantifier": "all values of any depth, all places in them, all classes", "why_tests_cant": "The claim ranges over values of unbounded depth and size; a test only fixes finitely many of them.", "anchors": [{"file": "dessia_common/core.py", "symbols": ["data_eq", "sequence_data_eq", "dict_data_eq", "DessiaObject._data_eq_dict", "DessiaObject._data_hash"]}, {"file": "dessia_common/utils/diff.py", "symbols": ["choose_hash", "sequence_hash", "dict_hash"]}]}
{"id": "C198", "title": "Copies can be copied again", "statement": "Every object built by its constructor can be copied deeply; what the copy gives has exactly the arguments of its constructor as attributes, and can itself be copied again without error; the copy of the copy is the copy itself, if no two different objects below it are equal; copying shallowly twice gives what copying once gives.", "quantifier": "all objects of any depth, all classes, all memos of the copy", "why_tests_cant": "The claim ranges over values of unbounded depth and size; a test only fixes finitely many of them.", "anchors": [{"file": "dessia_common/utils/copy.py", "symbols": ["deepcopy_value", "search_memo", "deepcopy_dict", "deepcopy_sequence"]}, {"file": "dessia_common/core.py", "symbols": ["DessiaObject.copy", "DessiaObject.__deepcopy__", "DessiaObject.__copy__"]}]}
{"id": "C199", "title": "Each edition of the steps of a workflow changes what it names, and nothing else", "statement": "Moving inputs to a step moves all and only the listed inputs there and leaves every other input in the step, or outside of the steps, where it was; renaming or documenting a step changes this text of this step only; taking an input out of its step changes nothing else; inserting a step leaves the other steps in their order and is undone by removing it; a refused edition changes nothing.", "quantifier": "all workflows, all states of their steps reachable by editions, all indexes, texts and lists of inputs", "why_tests_cant": "The claim ranges over values of unbounded depth and size; a test only fixes finitely many of them.", "anchors": [{"file": "dessia_common/workflow/core.py", "symbols": ["Workflow.change_inputs_step", "Workflow.rename_step", "Workflow.save_step_documentation", "Workflow.remove_input_from_step", "Workflow.insert_step", "Workflow.remove_step"]}]}
{"id": "C200", "title": "Random sample data has the points and clusters asked for", "statement": "Whatever the random generator draws, the sizes of the clusters of a random dataset are as many as asked, none is negative, they add up to the number of points, and each but the last lies between the half and the double of an even share of the points left; the dataset has exactly these points, each with as many coordinates as its class has.", "quantifier": "all numbers of points, of clusters and of dimensions, all draws of the random generator", "why_tests_cant": "The claim ranges over values of unbounded depth and size; a test only fixes finitely many of them.", "anchors": [{"file": "dessia_common/tests.py", "symbols": ["RandDataD1.set_cluster_sizes", "RandDataD1.create_dataset"]}]}
{"id": "C201", "title": "Sample objects follow their source", "statement": "The cars read from a file are those of its lines after the first, in order, up to the given number, without duplicates if asked; a line which is not a car is refused; a power simulation has one value for each time which has a power; generated models are as many as asked and follow from the parameter, and the progress told grows from 0 to 1.", "quantifier": "all files of any number of lines, all limits, all readings of numbers, all lists of times and powers, all parameters", "why_tests_cant": "The claim ranges over values of unbounded depth and size; a test only fixes finitely many of them.", "anchors": [{"file": "dessia_common/tests.py", "symbols": ["Car.from_csv", "System.power_simulation", "System.output_power", "Generator.generate", "Generator.long_generation"]}]}
{"id": "C202", "title": "A generated structure of beams is as asked, and its drawing refers to its beams", "statement": "As many structures of beams as asked are generated, each with from one to the greatest number of beams, of lengths within the bounds, whatever is drawn; impossible bounds are refused; the drawing of a structure has one shape for each beam, whose reference path leads in the structure to the beam drawn, and the vertical beams are drawn from left to right above the horizontal one.", "quantifier": "all numbers of structures and of beams, all bounds, all draws of the random generator, all structures", "why_tests_cant": "The claim ranges over values of unbounded depth and size; a test only fixes finitely many of them.", "anchors": [{"file": "dessia_common/forms.py", "symbols": ["BeamStructureGenerator.generate", "BeamStructure.plot2d", "BeamStructure.plot3d", "HorizontalBeam.contour", "VerticalBeam.contour"]}, {"file": "dessia_common/utils/helpers.py", "symbols": ["get_in_object_from_path"]}]}
{"id": "C203", "title": "Fronts of Pareto by parts, and best compromises", "statement": "The Pareto front of two sets of points together is the front of the two fronts, so that a front may be computed by parts or updated point by point: a new point which none dominates or equals joins the front, from which exactly the points it dominates go.  The best point for any cost made of all the costs with positive weights is on the front.  With a single cost the front is exactly the least value.", "quantifier": "all lists of points of any number of costs, all positive weights, all new points", "why_tests_cant": "The claim ranges over values of unbounded depth and size; a test only fixes finitely many of them.", "anchors": [{"file": "dessia_common/datatools/dataset.py", "symbols": ["Dataset.pareto_points", "Dataset.pareto_indexes"]}]}
{"id": "C204", "title": "The pointers of a document are listed with all its places", "statement": "pointer_graph_elements(document) succeeds on every JSON document; the pointers it lists are exactly the references of the document, each from its place to what it refers to; its other edges are exactly those from each value to what it holds, none being looked for inside a reference; its nodes are exactly the ends of these edges and pointers.  All the edges have the same shape.", "quantifier": "all documents of any depth and width", "why_tests_cant": "The claim ranges over values of unbounded depth and size; a test only fixes finitely many of them.", "anchors": [{"file": "dessia_common/serialization.py", "symbols": ["pointer_graph_elements", "pointer_graph_elements_sequence", "pointer_graph_elements_dict"]}]}
{"id": "C205", "title": "A new workflow holds what it is given", "statement": "A workflow is made exactly when it has no output or its output is an output of one of its blocks, and is refused otherwise; it then holds the blocks, pipes, output, steps, description, documentation and name given; a variable for the name of the result is added to it exactly when none of its free variables has this name.", "quantifier": "all lists of blocks and pipes, all outputs, all steps, all names of variables", "why_tests_cant": "The claim ranges over values of unbounded depth and size; a test only fixes finitely many of them.", "anchors": [{"file": "dessia_common/workflow/core.py", "symbols": ["Workflow.__init__", "Workflow._find_output_block", "Workflow._find_name"]}]}
{"id": "C206", "title": "Documents of workflows of former versions are read", "statement": "Workflow.dict_to_object reads a document in which the free variables, steps, description or documentation are missing as one in which they are empty.  Values imposed by a former version (imposed_variable_values) lock the variables to which their addresses lead, each on the last value imposed to it, and change nothing else; the document is refused exactly when its present form is or when an address leads nowhere.  The workflow read runs as its present form with the imposed values given by the user.", "quantifier": "all documents of workflows of any size, all sets of missing entries, all lists of imposed values, all values given by the user, all schedules", "why_tests_cant": "The claim ranges over values of unbounded depth and size; a test only fixes finitely many of them.", "anchors": [{"file": "dessia_common/workflow/core.py", "symbols": ["Workflow.dict_to_object", "initialize_workflow", "Workflow.variable_from_index", "Variable.lock"]}]}
{"id": "C207", "title": "The type told for a value reads it back", "statement": "recursive_type tells a type for every value a run may give: the class of an object, the kind of a number, string or dict, None for None, the list of the types of the elements for a sequence.  A value written by serialize and read by deserialize_with_type with the type told for it is equal to the original one.", "quantifier": "all values of any depth and width, all classes", "why_tests_cant": "The claim ranges over values of unbounded depth and size; a test only fixes finitely many of them.", "anchors": [{"file": "dessia_common/utils/types.py", "symbols": ["recursive_type"]}, {"file": "dessia_common/serialization.py", "symbols": ["deserialize_with_type", "serialize"]}]}
{"id": "C208", "title": "Descendants of a workflow compute the same", "statement": "After any number of copies and of savings followed by readings, in any order, a workflow can still be copied and saved, has the inputs and the output of the first one in the same order, the same blocks and steps, and computes the same values from the same inputs.  The first workflow is left unchanged and shares no variable with the last one.", "quantifier": "all workflows which can be copied and saved, all finite histories of copies and savings, all values of inputs", "why_tests_cant": "The claim ranges over values of unbounded depth and size; a test only fixes finitely many of them.", "anchors": [{"file": "dessia_common/workflow/core.py", "symbols": ["Workflow.__deepcopy__", "Workflow.to_dict", "Workflow.dict_to_object"]}]}
{"id": "C209", "title": "Whatever was done before, a session of evaluation can be completed, with the result of the run", "statement": "After any sequence of operations on a state of a workflow (starting it, giving values, activating inputs, evaluating a block, the next blocks or a branch, continuing) made with the values of a run which succeeds, the values still missing can be given in any order, each gift changing only its own input, and continuing then evaluates all the blocks which lead to the output and ends with the output of the run. Conversely a run whose inputs all have a value succeeds as soon as some sequence of operations evaluates all these blocks: a run never fails where a session succeeds.", "quantifier": "all well-formed workflows, all sequences of operations on a state, all values of inputs, all orders of sets", "why_tests_cant": "The claim ranges over values of unbounded depth and size; a test only fixes finitely many of them.", "anchors": [{"file": "dessia_common/workflow/core.py", "symbols": ["WorkflowState.add_input_value", "WorkflowState.continue_run", "WorkflowState.to_workflow_run", "Workflow.run"]}]}
{"id": "C210", "title": "The class found for a name does not depend on the names asked before", "statement": "The class found for a full name is the member of the module named before its last dot, whatever classes were looked for before, found or not: the cache never changes an answer. Once found, it is the same ever after, even if the module changes; a failure is not remembered. A text which is read from a document is taken for a class only if it stands for one, and reading it never fails. Looking for a class changes no setting of the interpreter.", "quantifier": "all interpreters, all sequences of calls, all names and texts", "why_tests_cant": "The claim ranges over values of unbounded depth and size; a test only fixes finitely many of them.", "anchors": [{"file": "dessia_common/utils/helpers.py", "symbols": ["get_python_class_from_class_name"]}, {"file": "dessia_common/utils/types.py", "symbols": ["is_classname_transform"]}]}
{"id": "C211", "title": "Documents of archives of former versions name the ports of the block", "statement": "Archive.dict_to_object names the first inputs and outputs of the block as the lists input_names and output_names of its document say; the other ports keep their names, names in excess are left out, and nothing but names changes. A present document, which has no such lists, is read as the archive which was written. The names read are kept when the archive is written and read again.", "quantifier": "all documents of archives, with lists of names of any length or none, all settings of classes", "why_tests_cant": "The claim ranges over values of unbounded depth and size; a test only fixes finitely many of them.", "anchors": [{"file": "dessia_common/workflow/blocks.py", "symbols": ["set_block_variable_names_from_dict", "Archive"]}]}
{"id": "C212", "title": "The Markdown of a run has a line for each evaluated block", "statement": "WorkflowRun.to_markdown and WorkflowState.to_markdown say the name and the workflow, what the output is, and have a table with one line for each block that was evaluated, with the memory used before and after its last evaluation and their difference.", "quantifier": "all histories of evaluations of blocks, repeated or not, all outputs and names", "why_tests_cant": "The claim ranges over values of unbounded depth and size; a test only fixes finitely many of them.", "anchors": [{"file": "dessia_common/workflow/core.py", "symbols": ["ExecutionInfo", "WorkflowState", "WorkflowRun"]}, {"file": "dessia_common/exports.py", "symbols": ["MarkdownWriter"]}]}
