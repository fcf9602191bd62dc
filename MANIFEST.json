{
 "claims": [
  {
   "property": "C01",
   "status": "proved",
   "theorems": [
    "DC.C01_dataEq_refl",
    "DC.C01_obj_eq_refl"
   ],
   "note": ""
  },
  {
   "property": "C02",
   "status": "partial",
   "theorems": [
    "DC.C02_symmetric_violated",
    "DC.C02_eq_symmetric_violated",
    "DC.C02_both_directions_iff_same_partial",
    "DC.C02_symmetric_partial"
   ],
   "note": "Disagreements of the code with the statement, each proved on a witness: C02 is violated by the code: an extra key in the second dictionary is not seen. C02 is violated by `==` too: two objects with `a == b` and `b != a`. Proved part: C02, what holds: the two directions of `data_eq` together decide exactly \"same data\" (a symmetric notion) for values without class objects. Missing: one direction alone is not enough, see `C02_symmetric_violated`. C02, what holds: `data_eq` is symmetric on values without dictionaries whose objects have the attributes set by their class. Missing: dictionaries (`C02_symmetric_violated`)."
  },
  {
   "property": "C03",
   "status": "proved",
   "theorems": [
    "DC.C03_eq_imp_hash",
    "DC.C03_same_data_same_hash",
    "DC.C03_hash_insertion_order",
    "DC.C03_hash_attribute_order",
    "DC.C03_hash_list_tuple"
   ],
   "note": ""
  },
  {
   "property": "C04",
   "status": "partial",
   "theorems": [
    "DC.C04_eq_iff_dataEq_violated",
    "DC.C04_same_data_eq_partial"
   ],
   "note": "Disagreements of the code with the statement, each proved on a witness: C04 is violated by the code: two objects of the same class whose floats are within the tolerance are data-equal but not `==`, because the hash of a float is exact. Proved part: C04, what holds: objects holding the same data with equal floats are `==`. Missing: floats that are only close."
  },
  {
   "property": "C05",
   "status": "proved",
   "theorems": [
    "DC.C05_diff_self_empty"
   ],
   "note": ""
  },
  {
   "property": "C06",
   "status": "proved",
   "theorems": [
    "DC.C06_empty_diff_imp_dataEq"
   ],
   "note": ""
  },
  {
   "property": "C07",
   "status": "partial",
   "theorems": [
    "DC.C07_missing_both_sides_violated",
    "DC.C07_missing_longer_partial",
    "DC.C07_missing_exact_partial"
   ],
   "note": "Disagreements of the code with the statement, each proved on a witness: C07 is violated by the code: with as many keys on both sides, the keys of the second dictionary that are absent from the first one are never reported. Proved part: C07, what holds in all cases: only the longer dictionary is browsed (the first one when lengths are equal), its keys absent from the other one are reported exactly. Missing: the keys of the other dictionary. C07, what holds: the full statement, when the keys of one dictionary are all keys of the other. Missing: dictionaries with own keys on both sides (`C07_missing_both_sides_violated`)."
  },
  {
   "property": "C08",
   "status": "partial",
   "theorems": [
    "DC.C08_copy_kind_violated",
    "DC.C08_copy_data_violated",
    "DC.C08_copy_exact_partial",
    "DC.C08_copy_dataEq_partial",
    "DC.C08_copy_dataEq_shared_partial",
    "DC.C08_copy_identity_partial"
   ],
   "note": "Disagreements of the code with the statement, each proved on a witness: C08 is violated by the code: the deep copy of a tuple is a list. C08 is violated by the code: an object that is `==` to one already copied (dictionaries are compared one way) is replaced by the copy of the latter, and the copy is not data-equal to the original. Proved part: C08, what holds: when no two different objects inside the value are `==`, the deep copy is the value itself, tuples becoming lists. Missing: tuples stay tuples (`C08_copy_kind_violated`), colliding objects (`C08_copy_data_violated`). C08, what holds under the same hypotheses: the copy is data-equal to the original, both ways, and has the same hash. Missing: objects which hold dictionaries and compare equal one way only (`C08_copy_data_violated`). C08, what holds without any hypothesis on equal sub-objects: the copy of a value without floats and dictionaries is data-equal to it, whatever the sharing. Missing: floats and dictionaries. C08, what holds: without tuples the copy is exactly the original. Missing: tuples, which become lists (`C08_copy_kind_violated`)."
  },
  {
   "property": "C09",
   "status": "partial",
   "theorems": [
    "DC.C09_index",
    "DC.C09_out",
    "DC.C09_root_violated",
    "DC.C09_pointer_violated",
    "DC.C09_get_after_set_partial",
    "DC.C09_set_succeeds"
   ],
   "note": "Disagreements of the code with the statement, each proved on a witness: Writing at the path `#` of a dictionary does not change what is read at this path: it adds a key `#`. Writing below a reference changes the dictionary holding the reference, reading goes through the reference. Proved part: C09, for paths of at least one segment, pointers being not evaluated or absent: what is read at a path after an assignment at this path is the assigned value. Missing: the path of the root itself, and objects holding references with `evaluate_pointers` (the code does not satisfy the property in these cases)."
  },
  {
   "property": "C10",
   "status": "partial",
   "theorems": [
    "DC.C10_alias_violated",
    "DC.C10_elsewhere_partial"
   ],
   "note": "Disagreements of the code with the statement, each proved on a witness: Two different paths may designate the same element of a list. Proved part: C10, for indices written in the usual way, pointers being not evaluated or absent: an assignment does not change what is read (value or exception) at a path that takes another branch. Missing: indices with a sign or leading zeros, and objects holding references with `evaluate_pointers`."
  },
  {
   "property": "C11",
   "status": "partial",
   "theorems": [
    "DC.C11_files_violated",
    "DC.C11_json_partial",
    "DC.C11_json_or_files",
    "DC.C11_idempotent"
   ],
   "note": "Disagreements of the code with the statement, each proved on a witness: C11 is violated by the code: a file is left as is in the output, which is not JSON data. Proved part: C11, what holds: the output of `serialize` on a value without files is JSON data. Missing: files (`C11_files_violated`)."
  },
  {
   "property": "C12",
   "status": "partial",
   "theorems": [
    "DC.C12_string_violated",
    "DC.C12_dict_violated",
    "DC.C12_roundtrip_partial",
    "DC.C12_exact_partial"
   ],
   "note": "Disagreements of the code with the statement, each proved on a witness: C12 is violated by the code: an object holding a string that happens to name something importable is read back with the imported thing instead of the string. C12 is violated by the code: an object holding a dictionary with the key `object_class` cannot be read back. Proved part: C12, what holds: an object whose data is `Readable` is serialized, and read back as an object of the same class with the same data, sequences becoming tuples or lists according to the annotations. Missing: strings naming importable things, dictionaries with reserved keys, builtin classes (`Readable` excludes them, see the `_violated` theorems). C12: if moreover the sequences are of the annotated kinds, exactly the same object is read back. Missing: what `Readable` excludes (`C12_string_violated`, `C12_dict_violated`)."
  },
  {
   "property": "C13",
   "status": "partial",
   "theorems": [
    "DC.C13_failures_partial",
    "DC.C13_partial",
    "DC.C13_names_violated",
    "DC.C13_measures_violated",
    "DC.C13_intKeys_violated",
    "DC.C13_slash_violated",
    "DC.C13_list_violated",
    "DC.C13_extra_violated"
   ],
   "note": "Disagreements of the code with the statement, each proved on a witness: **C13** is violated by the code: of two objects which only differ by their name, the second one is replaced with a reference to the first one, and its name is lost. **C13** is violated by the code: a duration equal, as a number, to a distance is replaced with a reference to the distance. **C13** is violated by the code: an object shared by two dictionaries with integer keys is not replaced with a reference where it is; the reference is added with a string key. **C13** is violated by the code: when a key of a dictionary has a slash, sharing the object it holds makes `to_dict` fail, although the pointer-free serialization does not. **C13** is violated by the code: a list, even a list of numbers, cannot be serialized with pointers by `serialize_with_pointers`, although `serialize` accepts it: whatever the list, the call fails. **C13** is violated by the code: the dictionary which is the reference to an object of a standalone class may get an other key, when the object holds a shared object. Proved part: **C13.** `to_dict()` succeeds only if the pointer-free serialization succeeds, when equal objects have the same serialization. Missing: equal objects with different serializations (see the `_violated` theorems of C13). **C13.** If the pointer-free serialization of an object is the dictionary `e`, then `to_dict()` succeeds, and its result, each `{\"$ref\": \"#/_references/id\"}` being replaced with the value of `id` in its `_references`, reads as `e`; the references are also the serialization of parts of the object. Missing: the keys and attributes are strings without `/`, different from `$ref` (and `object_class` for attributes); objects and measures which are equal are assumed to have the same serialization: see the theorems `C13_..._violated`. The order of the keys is ignored."
  },
  {
   "property": "C14",
   "status": "proved",
   "theorems": [
    "DC.C14_order",
    "DC.C14_renamed_available",
    "DC.C14_cycle_rejected",
    "DC.C14_acyclic_accepted"
   ],
   "note": ""
  },
  {
   "property": "C15",
   "status": "partial",
   "theorems": [
    "DC.C15_loop_violated",
    "DC.C15_ends_partial",
    "DC.C15_ends_iff"
   ],
   "note": "Disagreements of the code with the statement, each proved on a witness: The analysis of a dictionary holding the reference `'x'`, not rooted at `#`, never ends. Proved part: C15, when all the references start at the root `#`: the analysis ends. Missing: other reference strings, for which the code loops for ever (`C15_loops`)."
  },
  {
   "property": "C16",
   "status": "partial",
   "theorems": [
    "DC.Types.C16_partial",
    "DC.Types.C16_tuple_violated",
    "DC.Types.C16_variadic_violated",
    "DC.Types.C16_optional_violated"
   ],
   "note": "Disagreements of the code with the statement, each proved on a witness: `Tuple[int, int]` matches `Tuple[int]`, although a pair of ints is not a value of the latter. `Tuple[int, ...]` matches `Tuple[float]`, although a pair of ints is not a value of the latter. `Optional[List[int]]` matches `List[int]`, although None is not a value of the latter. Proved part: If typematch says yes, every value of the first type is a value of the second, unless an optional type is compared to an other type or two tuple types of different shapes are compared. Missing for the full property: these two cases (`C16_optional_violated`, `C16_tuple_violated`)."
  },
  {
   "property": "C17",
   "status": "proved",
   "theorems": [
    "DC.Types.C17_refl",
    "DC.Types.C17_any",
    "DC.Types.C17_list",
    "DC.Types.C17_dict",
    "DC.Types.C17_tuple",
    "DC.Types.C17_class"
   ],
   "note": ""
  },
  {
   "property": "C18",
   "status": "proved",
   "theorems": [
    "DC.C18_exact",
    "DC.C18_mono"
   ],
   "note": ""
  },
  {
   "property": "C19",
   "status": "partial",
   "theorems": [
    "DC.Types.C19_partial",
    "DC.Types.C19_union",
    "DC.Types.C19_nested_violated",
    "DC.Types.C19_optional_violated",
    "DC.Types.C19_iterator_violated",
    "DC.Types.C19_view_violated",
    "DC.Types.C19_literal_violated",
    "DC.Types.C19_none_violated"
   ],
   "note": "Disagreements of the code with the statement, each proved on a witness: `Tuple[Tuple[int, ...], str]` is serialized, but its string cannot be deserialized. `Optional[int]` comes back as `int`. `Iterator[int]` comes back as `List[int]`. The string of `CadViewType[pkg.Car]` raises a KeyError. `Literal['a b']` comes back as `Literal['ab']`. `List[None]` comes back as `List[Type]`. Proved part: The annotations of `Good` are serialized, and come back from their strings. Missing for the full property: see the theorems below."
  },
  {
   "property": "C20",
   "status": "proved",
   "theorems": [
    "DC.Types.C20_split",
    "DC.Types.C20_content"
   ],
   "note": ""
  },
  {
   "property": "C21",
   "status": "partial",
   "theorems": [
    "DC.Types.C21_partial",
    "DC.Types.C21_merge_partial",
    "DC.Types.C21_static_violated",
    "DC.Types.C21_keyword_violated"
   ],
   "note": "Disagreements of the code with the statement, each proved on a witness: `def f(x=1, y=2)`, without self: the default of x is lost. `def f(self, x, *, y=2)`: y has a default, but no entry. Proved part: For every signature with a first parameter (self), split_default_args gives the other positional parameters without default, and associates to those with a default this default, in order and without the reserved names. Missing for the full property: the first parameter of functions without self (`C21_static_violated`), and keyword-only parameters (`C21_keyword_violated`). With merge, they are given in one list, in order. Missing: static methods and arguments which are keyword-only (`C21_static_violated`, `C21_keyword_violated`)."
  },
  {
   "property": "C22",
   "status": "partial",
   "theorems": [
    "DC.C22_shape_partial",
    "DC.C22_collision_violated",
    "DC.C22_idempotent",
    "DC.C22_string_keys"
   ],
   "note": "Disagreements of the code with the statement, each proved on a witness: **C22 fails on colliding keys**: an entry is lost. Proved part: **C22 (partial).** When the keys of each dictionary have distinct strings, `stringify_dict_keys` returns a value of the same shape where each entry is kept, under the string of its key. Missing: dictionaries with keys such as `1` and `\"1\"`, where the property is false (`C22_collision_violated`)."
  },
  {
   "property": "C23",
   "status": "proved",
   "theorems": [
    "DC.C23_above_exact",
    "DC.C23_shrinks",
    "DC.C23_distributes",
    "DC.C23_raises_iff",
    "DC.C23_unknown_level",
    "DC.C23_truth"
   ],
   "note": ""
  },
  {
   "property": "C24",
   "status": "partial",
   "theorems": [
    "DC.C24_info_violated",
    "DC.C24_failed_iff",
    "DC.C24_info_partial",
    "DC.C24_quiet"
   ],
   "note": "Disagreements of the code with the statement, each proved on a witness: C24 is violated by the code: with level `info`, no check is reported for an integer. Proved part: C24, outside of `int`, `float` and `str`: with level `info` a passed check is reported for a value of the expected type. Missing: `int`, `float` and `str`, for which the level is not taken into account."
  },
  {
   "property": "C25",
   "status": "partial",
   "theorems": [
    "DC.C25_and",
    "DC.C25_or",
    "DC.C25_xor_is_or",
    "DC.C25_xor_partial",
    "DC.C25_xor_violated",
    "DC.C25_empty_and_violated",
    "DC.C25_unknown_logical",
    "DC.C25_unknown_comparison",
    "DC.C25_unknown_error",
    "DC.C25_total"
   ],
   "note": "Disagreements of the code with the statement, each proved on a witness: **C25 fails for xor**: an object which satisfies two filters is kept. **C25 fails for \"and\" without filter**: every object satisfies every filter of the empty list, none is kept. Proved part: **C25, xor (partial).** When no object satisfies two filters, \"xor\" keeps the objects which satisfy exactly one. The full statement, without that hypothesis, is false: `C25_xor_violated`."
  },
  {
   "property": "C26",
   "status": "proved",
   "theorems": [
    "DC.C26_sublist",
    "DC.C26_idempotent",
    "DC.C26_length",
    "DC.C26_indexes"
   ],
   "note": ""
  },
  {
   "property": "C27",
   "status": "proved",
   "theorems": [
    "DC.Wkf.C27_once",
    "DC.Wkf.C27_needed",
    "DC.Wkf.C27_order",
    "DC.Wkf.C27_completes"
   ],
   "note": ""
  },
  {
   "property": "C28",
   "status": "proved",
   "theorems": [
    "DC.Wkf.C28_values",
    "DC.Wkf.C28_agree",
    "DC.Wkf.C28_run",
    "DC.Wkf.C28_result"
   ],
   "note": ""
  },
  {
   "property": "C29",
   "status": "proved",
   "theorems": [
    "DC.Wkf.C29_ends",
    "DC.Wkf.C29_run",
    "DC.Wkf.C29_fuel",
    "DC.Wkf.C29_acyclic"
   ],
   "note": ""
  },
  {
   "property": "C30",
   "status": "proved",
   "theorems": [
    "DC.Wkf.C30_missing",
    "DC.Wkf.C30_result"
   ],
   "note": ""
  },
  {
   "property": "C31",
   "status": "partial",
   "theorems": [
    "DC.Wkf.C31_run",
    "DC.Wkf.C31_state_violated"
   ],
   "note": "Disagreements of the code with the statement, each proved on a witness: A state made from a workflow does not honour the locks: `start_run` runs a locked input with the value given."
  },
  {
   "property": "C32",
   "status": "proved",
   "theorems": [
    "DC.Wkf.C32_bounds",
    "DC.Wkf.C32_complete",
    "DC.Wkf.C32_monotone",
    "DC.Wkf.C32_increases"
   ],
   "note": ""
  },
  {
   "property": "C33",
   "status": "partial",
   "theorems": [
    "DC.Wkf.C33_init",
    "DC.Wkf.C33_step",
    "DC.Wkf.C33_partial",
    "DC.Wkf.C33_spare_violated",
    "DC.Wkf.C33_change",
    "DC.Wkf.C33_remove",
    "DC.Wkf.C33_reset",
    "DC.Wkf.C33_find"
   ],
   "note": "Disagreements of the code with the statement, each proved on a witness: `remove_input_from_step` called on a spare input raises, but lists it a second time in the spare inputs. Proved part: After any history of careful editions, some of which may have raised, each input of the workflow is exactly once in the steps or in the spare inputs. Missing for the full property: the editions which are not careful (see `C33_spare_violated`, `C34_violated` and `C34_inputs_violated`)."
  },
  {
   "property": "C34",
   "status": "partial",
   "theorems": [
    "DC.Wkf.C34_order",
    "DC.Wkf.C34_raises",
    "DC.Wkf.C34_rejects",
    "DC.Wkf.C34_steps_partial",
    "DC.Wkf.C34_accepts",
    "DC.Wkf.C34_violated",
    "DC.Wkf.C34_inputs",
    "DC.Wkf.C34_inputs_partial",
    "DC.Wkf.C34_inputs_raises",
    "DC.Wkf.C34_inputs_violated"
   ],
   "note": "Disagreements of the code with the statement, each proved on a witness: With negative indices, `reorder_steps` accepts an order which lists a step twice and drops an other one, with its inputs. `reorder_step_inputs` accepts repeated indices, and the step then holds an input twice. Proved part: `reorder_steps` leaves exactly the same steps, if no index is negative. Missing for the full property: negative indices (see `C34_violated`). `reorder_step_inputs` only permutes the inputs of the step if no index is repeated. Missing for the full property: repeated indices (see `C34_inputs_violated`)."
  },
  {
   "property": "C35",
   "status": "partial",
   "theorems": [
    "DC.Wkf.C35_roundtrip",
    "DC.Wkf.C35_injective",
    "DC.Wkf.C35_unknown",
    "DC.Wkf.C35_free_violated"
   ],
   "note": "Disagreements of the code with the statement, each proved on a witness: When a pipe goes from a free variable to an other, both get the same address."
  },
  {
   "property": "C36",
   "status": "partial",
   "theorems": [
    "DC.Wkf.C36_partial",
    "DC.Wkf.C36_runs",
    "DC.Wkf.C36_locked_violated",
    "DC.Wkf.C36_type_violated",
    "DC.Wkf.C36_detached_violated",
    "DC.Wkf.C36_renamed_violated",
    "DC.Wkf.C36_free_violated",
    "DC.Wkf.C36_step_violated",
    "DC.Wkf.C36_raises_violated"
   ],
   "note": "Disagreements of the code with the statement, each proved on a witness: A locked free variable comes back unlocked. A free variable takes the annotation of the port it feeds. A detached variable is lost. A renamed port takes back the name of its class. A pipe from a free variable to an other one comes back as a pipe from the first one to itself. The index of the displayed variable of a step without display setting is lost. A workflow with a locked variable whose default value has been removed cannot be serialized. Proved part: A workflow whose ports are those of the constructors of its blocks is read back from its dict, as new variables with the same names, annotations, labels, positions, default values and locks, the same blocks, pipes between the same ports, the same output, the same steps, the same texts. Missing: free variables which are locked or whose annotation is not the one of the ports they feed, detached variables, renamed ports, pipes into a free variable, steps which have the index of a displayed variable without display setting (see the theorems below)."
  },
  {
   "property": "C37",
   "status": "partial",
   "theorems": [
    "DC.Wkf.C37_partial",
    "DC.Wkf.C37_equal_partial",
    "DC.Wkf.C37_runs",
    "DC.Wkf.C37_default_violated",
    "DC.Wkf.C37_label_violated",
    "DC.Wkf.C37_texts_violated",
    "DC.Wkf.C37_detached_violated",
    "DC.Wkf.C37_shared_violated",
    "DC.Wkf.C37_group_violated",
    "DC.Wkf.C37_free_violated",
    "DC.Wkf.C37_lock_violated",
    "DC.Wkf.C37_hash_violated"
   ],
   "note": "Disagreements of the code with the statement, each proved on a witness: The default value given by a user to an input which is not locked is lost: what runs without giving this input no longer runs on the copy. Labels are lost. The description and the documentation are lost. The detached variables are lost. The workflow and its copy share the variable of the name of the result. The group inputs of a step which are inputs of a previous step are lost. A workflow with a pipe into a free variable cannot be copied. The lock of a port which a pipe feeds is lost, and the copy then differs from the workflow. A workflow which has a step without the index of a displayed variable, as steps are built by default, can be compared with nothing, not even itself: the hash of the step raises. Proved part: What the copy of a workflow is: the same blocks with new ports, pipes between the same ports, the same output, the same steps; the original is left as it was. The ports are those of the constructors of the blocks, with the default value and the lock of the inputs of the workflow which are locked; the free variables keep their name, annotation, default value and lock. Missing: group inputs of a step which are not among its inputs, pipes into a free variable, labels, default values of the ports which are not locked, texts, detached variables (see the theorems below). The copy compares equal to the original, when only inputs of the workflow are locked and every step has the index of a displayed variable. (`s` still tells what the variables of the original hold, by `Replica.kept`.) Missing: other locks and steps (`C37_lock_violated`, `C104_step_violated`)."
  },
  {
   "property": "C38",
   "status": "partial",
   "theorems": [
    "DC.Wkf.C38_violated",
    "DC.Wkf.C38_partial"
   ],
   "note": "Disagreements of the code with the statement, each proved on a witness: `method_dict('run')` raises a ValueError for every workflow with an input having a default value. Proved part: It returns an empty dictionary when no input has a default value. Missing for the full property: the other workflows, for which it raises (`C38_violated`)."
  },
  {
   "property": "C39",
   "status": "proved",
   "theorems": [
    "DC.Wkf.C39_mix",
    "DC.Wkf.C39_share"
   ],
   "note": ""
  },
  {
   "property": "C40",
   "status": "proved",
   "theorems": [
    "DC.Wkf.C40_runtime",
    "DC.Wkf.C40_no_output"
   ],
   "note": ""
  },
  {
   "property": "C41",
   "status": "partial",
   "theorems": [
    "DC.Wkf.C41_sequence",
    "DC.Wkf.C41_concatenate",
    "DC.Wkf.C41_concatenate_raises",
    "DC.Wkf.C41_missing",
    "DC.Wkf.C41_flatten",
    "DC.Wkf.C41_flatten_raises",
    "DC.Wkf.C41_product",
    "DC.Wkf.C41_unpacker",
    "DC.Wkf.C41_sum_violated",
    "DC.Wkf.C41_sum_empty",
    "DC.Wkf.C41_substraction",
    "DC.Wkf.C41_strings",
    "DC.Wkf.C41_strings_raises",
    "DC.Wkf.C41_foreach",
    "DC.Wkf.C41_workflow"
   ],
   "note": "Disagreements of the code with the statement, each proved on a witness: A Sum block with an input always raises."
  },
  {
   "property": "C42",
   "status": "proved",
   "theorems": [
    "DC.Wkf.C42_incoming",
    "DC.Wkf.C42_outgoing",
    "DC.Wkf.C42_block",
    "DC.Wkf.C42_between",
    "DC.Wkf.C42_inputs"
   ],
   "note": ""
  },
  {
   "property": "C43",
   "status": "proved",
   "theorems": [
    "DC.Data.C43_exact",
    "DC.Data.C43_pareto",
    "DC.Data.C43_real",
    "DC.Data.C43_costs"
   ],
   "note": ""
  },
  {
   "property": "C44",
   "status": "partial",
   "theorems": [
    "DC.Data.C44_labels_partial",
    "DC.Data.C44_labels_violated",
    "DC.Data.C44_partition",
    "DC.Data.C44_rank"
   ],
   "note": "Disagreements of the code with the statement, each proved on a witness: If all the objects are in the asked sheets, the labelling never ends: for instance one sheet of two objects none of which is better than the other. Proved part: If no sheet is empty and some objects are left, each object of the i-th sheet has the label i and the others have the number of sheets for label. Missing for the full property: the other cases (`C44_labels_violated`)."
  },
  {
   "property": "C45",
   "status": "partial",
   "theorems": [
    "DC.Data.C45_slice",
    "DC.Data.C45_slice_raises",
    "DC.Data.C45_slice_simple",
    "DC.Data.C45_slice_reverse",
    "DC.Data.C45_booleans",
    "DC.Data.C45_filtering",
    "DC.Data.C45_indexes",
    "DC.Data.C45_indexes_partial",
    "DC.Data.C45_order_violated",
    "DC.Data.C45_empty_violated",
    "DC.Data.C45_nothing",
    "DC.Data.C45_int"
   ],
   "note": "Disagreements of the code with the statement, each proved on a witness: A list of indices which is not increasing loses its order and its repetitions. Whatever the key, selecting in an empty dataset returns an empty list: neither a dataset for a slice or a list nor an IndexError for an integer. Proved part: An increasing list of indices selects the designated objects in the designated order. Missing for the full property: the other lists (`C45_order_violated`)."
  },
  {
   "property": "C46",
   "status": "proved",
   "theorems": [
    "DC.Data.C46_sort",
    "DC.Data.C46_empty",
    "DC.Data.C46_unreadable",
    "DC.Data.C46_lacking",
    "DC.Data.C46_readable"
   ],
   "note": ""
  },
  {
   "property": "C47",
   "status": "partial",
   "theorems": [
    "DC.Data.C47_common",
    "DC.Data.C47_init",
    "DC.Data.C47_read",
    "DC.Data.C47_matrix",
    "DC.Data.C47_getitem",
    "DC.Data.C47_sum_partial",
    "DC.Data.C47_sum_violated",
    "DC.Data.C47_rows_violated"
   ],
   "note": "Disagreements of the code with the statement, each proved on a witness: The sum of a dataset and of a dataset having less common attributes claims an attribute which is not a feature of all objects, and its matrix cannot be read. The sum of two datasets whose matrices are cached and whose common attributes come in different orders mixes up the columns. Proved part: The sum of two coherent datasets is coherent if, when the attributes of the second are among those of the first, the attributes of the first are features of the objects of the second, and both have the same attributes in the same order when both matrices are cached. Missing for the full property: the other cases (`C47_sum_violated`, `C47_rows_violated`)."
  },
  {
   "property": "C48",
   "status": "partial",
   "theorems": [
    "DC.Data.C48_content",
    "DC.Data.C48_labels_partial",
    "DC.Data.C48_names_partial",
    "DC.Data.C48_default",
    "DC.Data.C48_labels_violated",
    "DC.Data.C48_names_violated"
   ],
   "note": "Disagreements of the code with the statement, each proved on a witness: With the labels -1 and 7, which CPython enumerates in this order, the outliers are given the label 7. With the labels 0 to 10, the third sublist, which holds the objects labeled 2, is named after the label 10. Proved part: The sublists are paired with their labels if Python enumerates the set of labels like the set of clusters, the outliers being last. Missing for the full property: the other orders (`C48_labels_violated`). The sublists are named after their labels if, moreover, the clusters are enumerated in the order of their decimal notations, as 0, 1, ..., 9. Missing for the full property: the other orders (`C48_names_violated`)."
  },
  {
   "property": "C49",
   "status": "partial",
   "theorems": [
    "DC.Data.C49_manhattan",
    "DC.Data.C49_length_violated",
    "DC.Data.C49_inf",
    "DC.Data.C49_inf_norm",
    "DC.Data.C49_euclidian"
   ],
   "note": "Disagreements of the code with the statement, each proved on a witness: On vectors of different lengths, which raise no error, the distance can be null between different vectors."
  },
  {
   "property": "C50",
   "status": "proved",
   "theorems": [
    "DC.Data.C50_mean",
    "DC.Data.C50_symm",
    "DC.Data.C50_variance",
    "DC.Data.C50_translation",
    "DC.Data.C50_raises",
    "DC.Data.C50_bound"
   ],
   "note": ""
  },
  {
   "property": "C51",
   "status": "partial",
   "theorems": [
    "DC.Data.C51_grid",
    "DC.Data.C51_distinct",
    "DC.Data.C51_bounds",
    "DC.Data.C51_single_violated",
    "DC.Data.C51_names_violated",
    "DC.Data.C51_empty"
   ],
   "note": "Disagreements of the code with the statement, each proved on a witness: With a single level the upper bound is never reached. Two sampled attributes of the same name: the same sample is given several times, and not one per choice."
  },
  {
   "property": "C52",
   "status": "proved",
   "theorems": [
    "DC.Num.C52_inverse",
    "DC.Num.C52_range",
    "DC.Num.C52_bounds",
    "DC.Num.C52_raises",
    "DC.Num.C52_random",
    "DC.Num.C52_bounded"
   ],
   "note": ""
  },
  {
   "property": "C53",
   "status": "partial",
   "theorems": [
    "DC.Num.C53_partial",
    "DC.Num.C53_raises",
    "DC.Num.C53_extrapolates",
    "DC.Num.C53_outside",
    "DC.Num.C53_decreasing_violated",
    "DC.Num.C53_duplicate_violated"
   ],
   "note": "Disagreements of the code with the statement, each proved on a witness: On a decreasing list, the index gives the value mirrored in its segment. A ZeroDivisionError is raised for a value equal to the first two elements. Proved part: On a non decreasing list, the float index of every value between the first and the last elements gives the value back when interpolated. Excepted: a value equal to the first two elements, for which a ZeroDivisionError is raised (`C53_duplicate_violated`). Missing for the full property: decreasing lists (`C53_decreasing_violated`)."
  },
  {
   "property": "C54",
   "status": "proved",
   "theorems": [
    "DC.Num.C54_pairs",
    "DC.Num.C54_triples",
    "DC.Num.C54_incomplete",
    "DC.Num.C54_other"
   ],
   "note": ""
  },
  {
   "property": "C55",
   "status": "partial",
   "theorems": [
    "DC.Brk.C55_merge",
    "DC.Brk.C55_breakdown",
    "DC.Brk.C55_numbers",
    "DC.Brk.C55_empty_key_violated"
   ],
   "note": "Disagreements of the code with the statement, each proved on a witness: An object standing under an empty key of a dictionary given to `breakdown` is not listed."
  },
  {
   "property": "C56",
   "status": "partial",
   "theorems": [
    "DC.Txt.C56_extension",
    "DC.Txt.C56_partial",
    "DC.Txt.C56_violated",
    "DC.Txt.C56_json"
   ],
   "note": "Disagreements of the code with the statement, each proved on a witness: A name ending by the extension without a dot is left as it is. Proved part: A file name without the extension gets a dot and the extension; one with the dot and the extension is left as it is. Missing for the full property: names ending by the extension without a dot (`C56_violated`)."
  },
  {
   "property": "C57",
   "status": "partial",
   "theorems": [
    "DC.Txt.C57_grouped",
    "DC.Txt.C57_as_is_partial",
    "DC.Txt.C57_as_is_violated"
   ],
   "note": "Disagreements of the code with the statement, each proved on a witness: A class and a module of the same name: the module is not imported. Proved part: Each module imported as it is has a line 'import module', and one only, if no imported name is this one. Missing for the full property: a module with the name of an imported class, which may be skipped (`C57_as_is_violated`)."
  },
  {
   "property": "C58",
   "status": "partial",
   "theorems": [
    "DC.Txt.C58_no_limit",
    "DC.Txt.C58_fits_partial",
    "DC.Txt.C58_beyond_partial",
    "DC.Txt.C58_duplicated_violated",
    "DC.Txt.C58_odd_violated",
    "DC.Txt.C58_one_violated"
   ],
   "note": "Disagreements of the code with the statement, each proved on a witness: Between the half of an even limit and the limit, more lines than rows are shown: some rows are shown twice. Beyond an odd limit, one more row is hidden than announced. A limit of one row: no row is shown at all. Proved part: The rows are shown once each, in order, when they fill at most the half of the table, or exactly an even limit. Missing for the full property: between the half and the limit (`C58_duplicated_violated`). Beyond an even limit, the first and the last rows are shown once each, with the right number of hidden rows between them. Missing for the full property: odd limits (`C58_odd_violated`)."
  },
  {
   "property": "C59",
   "status": "partial",
   "theorems": [
    "DC.Txt.C59_duplicates",
    "DC.Txt.C59_missing",
    "DC.Txt.C59_values",
    "DC.Txt.C59_check_violated"
   ],
   "note": "Disagreements of the code with the statement, each proved on a witness: The check of missing attributes made when the sheet is opened does not see a missing attribute when an other title stands for it."
  },
  {
   "property": "C60",
   "status": "proved",
   "theorems": [
    "DC.Txt.C60_roundtrip",
    "DC.Txt.C60_missing",
    "DC.Txt.C60_equality",
    "DC.Txt.C60_compose"
   ],
   "note": ""
  },
  {
   "property": "C61",
   "status": "proved",
   "theorems": [
    "DC.Num.C61_bounded",
    "DC.Num.C61_fixed",
    "DC.Num.C61_only",
    "DC.Num.C61_vector",
    "DC.Num.C61_best"
   ],
   "note": ""
  },
  {
   "property": "C62",
   "status": "proved",
   "theorems": [
    "DC.Txt.C62_step"
   ],
   "note": ""
  },
  {
   "property": "C63",
   "status": "proved",
   "theorems": [
    "DC.Txt.C63_words",
    "DC.Txt.C63_characters",
    "DC.Txt.C63_no_underscore",
    "DC.Txt.C63_identity"
   ],
   "note": ""
  },
  {
   "property": "C64",
   "status": "partial",
   "theorems": [
    "DC.C64_classes_distinguished_violated",
    "DC.C64_class_vs_value_partial"
   ],
   "note": "Disagreements of the code with the statement, each proved on a witness: C64 is violated by the code: any two class objects are data-equal, for instance `int` and `str`. Proved part: C64, what holds: a class is never data-equal to a value that is not a class. Missing: two different classes (`C64_classes_distinguished_violated`)."
  },
  {
   "property": "C65",
   "status": "partial",
   "theorems": [
    "DC.C65_eq_total_violated",
    "DC.C65_eq_total_partial"
   ],
   "note": "Disagreements of the code with the statement, each proved on a witness: C65 is violated by the code: comparing an object to a list or a dictionary with `==` raises TypeError. Proved part: C65, what holds: comparing with any other value returns a boolean, `False` unless it is an object of the same class. Missing: lists and dictionaries (`C65_eq_total_violated`)."
  },
  {
   "property": "C66",
   "status": "partial",
   "theorems": [
    "DC.C66_transitive_violated",
    "DC.C66_transitive_partial"
   ],
   "note": "Disagreements of the code with the statement, each proved on a witness: C66 is violated by the code because of the float tolerance. Proved part: C66, what holds: `data_eq` is transitive from float-free values. Missing: floats (`C66_transitive_violated`)."
  },
  {
   "property": "C67",
   "status": "partial",
   "theorems": [
    "DC.C67_dataEq_imp_empty_diff_violated",
    "DC.C67_same_imp_empty_diff_partial",
    "DC.C67_objects_partial"
   ],
   "note": "Disagreements of the code with the statement, each proved on a witness: C67 is violated by the code: `1` and `True` hold equal data both ways, but their diff reports different types. Proved part: C67, what holds: values with the same data have an empty diff if they hold neither boolean nor measure outside of objects. Missing: booleans against integers and measures against floats. C67, what holds: two objects of one class with `data_eq` in the direction of the diff have an empty diff. Missing: values other than objects of one class (`C67_dataEq_imp_empty_diff_violated`)."
  },
  {
   "property": "C68",
   "status": "partial",
   "theorems": [
    "DC.C68_value_order_violated",
    "DC.C68_entries_located_partial",
    "DC.C68_value_order_partial"
   ],
   "note": "Disagreements of the code with the statement, each proved on a witness: C68 is violated by the code: for two objects of the same class, the attribute `name` is removed from the first one only, so that the second one is browsed against the first one: values are swapped, and `name` is reported as missing in the first object though it has one. Proved part: C68, what holds for all values: the two values of each entry are those found at its path in the two objects, in one order or the other. Missing: the order. C68, what holds: the full statement for values made of base values, lists and tuples. Missing: dictionaries and objects (`C68_value_order_violated`)."
  },
  {
   "property": "C69",
   "status": "proved",
   "theorems": [
    "DC.C69_different_is_real"
   ],
   "note": ""
  },
  {
   "property": "C70",
   "status": "partial",
   "theorems": [
    "DC.C70_diff_total_violated",
    "DC.C70_diff_total_partial",
    "DC.C70_raises"
   ],
   "note": "Disagreements of the code with the statement, each proved on a witness: C70 is violated by the code: two different classes, or two files of one kind with different contents, make `diff` raise NotImplementedError. Proved part: C70, what holds: the diff of values without class objects and files is computed. Missing: these two kinds."
  },
  {
   "property": "C71",
   "status": "partial",
   "theorems": [
    "DC.C71_copy_names_violated",
    "DC.C71_copy_names_partial"
   ],
   "note": "Disagreements of the code with the statement, each proved on a witness: C71 is violated by the code: of two sub-objects that only differ by their name, the second one is replaced by the copy of the first one and loses its name. Proved part: C71, what holds: when no two different objects inside the value are `==`, every attribute of every object, names included, is kept (tuples becoming lists). Missing: equal objects with different names."
  },
  {
   "property": "C72",
   "status": "proved",
   "theorems": [
    "DC.C72_shallow_copy",
    "DC.C72_shallow_copy_missing"
   ],
   "note": ""
  },
  {
   "property": "C73",
   "status": "proved",
   "theorems": [
    "DC.C73_serialize_ok_iff"
   ],
   "note": ""
  },
  {
   "property": "C74",
   "status": "proved",
   "theorems": [
    "DC.C74_platform_bson",
    "DC.C74_hidden"
   ],
   "note": ""
  },
  {
   "property": "C75",
   "status": "partial",
   "theorems": [
    "DC.Wkf.C75_violated",
    "DC.Wkf.C75_partial"
   ],
   "note": "Disagreements of the code with the statement, each proved on a witness: A free variable between two blocks hides the first from the second: all the inputs are given, no block raises, and the run fails, because the first block is not a runtime block. Proved part: **C75** (part): in a workflow where pipes may go through free variables, any number of them, a run that ends has evaluated each of its blocks after all those from which pipes lead to it, and each pipe of such a chain holds the value of its first one. Missing for the full property: the run ends, which fails when the first block is not found to lead to the output (`C75_violated`)."
  },
  {
   "property": "C76",
   "status": "partial",
   "theorems": [
    "DC.Wkf.C76_partial",
    "DC.Wkf.C76_violated"
   ],
   "note": "Disagreements of the code with the statement, each proved on a witness: After a run, giving an other value to an input and continuing keeps the previous result: evaluated blocks are not evaluated again. Proved part: An other value given to an input before the blocks are evaluated: continuing gives the result of a run made with this value from the start. Missing: values given after blocks were evaluated (`C76_violated`)."
  },
  {
   "property": "C77",
   "status": "partial",
   "theorems": [
    "DC.Wkf.C77_next",
    "DC.Wkf.C77_ends_partial",
    "DC.Wkf.C77_violated"
   ],
   "note": "Disagreements of the code with the statement, each proved on a witness: A block which does not lead to the output is returned again and again once it has its inputs: here, whatever the number of calls, the block of the output is never evaluated and the progress stays at zero. Proved part: When all the blocks lead to the output, evaluating them one by one ends: among more calls than there are blocks, one returns nothing. Missing: blocks which do not lead to the output (`C77_violated`)."
  },
  {
   "property": "C78",
   "status": "partial",
   "theorems": [
    "DC.Wkf.C78_display",
    "DC.Wkf.C78_stays_violated",
    "DC.Wkf.C78_removed"
   ],
   "note": "Disagreements of the code with the statement, each proved on a witness: Editing the steps afterwards may put an input of a display after it: the display is kept although its inputs are no more available at this step."
  },
  {
   "property": "C79",
   "status": "partial",
   "theorems": [
    "DC.Wkf.C79_partial",
    "DC.Wkf.C79_violated"
   ],
   "note": "Disagreements of the code with the statement, each proved on a witness: Class method and for-each blocks have no `package_mix`: a workflow using packages only through them has an empty package mix. Proved part: The packages of the mix are those named, at any depth, by the blocks that tell their package, each with a positive share. Missing: blocks that do not tell it (`C79_violated`)."
  },
  {
   "property": "C80",
   "status": "partial",
   "theorems": [
    "DC.Wkf.C80_archive",
    "DC.Wkf.C80_partial",
    "DC.Wkf.C80_violated"
   ],
   "note": "Disagreements of the code with the statement, each proved on a witness: Two files of the same name: the first cannot be read any more. Proved part: Each file can be read in the archive under its name, if the names are distinct. Missing for the full property: files with the same name (`C80_violated`)."
  },
  {
   "property": "C81",
   "status": "partial",
   "theorems": [
    "DC.Num.C81_partial",
    "DC.Num.C81_symmetric",
    "DC.Num.C81_apart",
    "DC.Num.C81_optimizer",
    "DC.Num.C81_violated"
   ],
   "note": "Disagreements of the code with the statement, each proved on a witness: Two angles of 0 and 359.999 degrees are the same modulo 360 up to 0.01, and are not found equal. Proved part: Values differing by a multiple of the period are equal, whatever the tolerance. Missing for the full property: values differing by a multiple of the period up to the tolerance, on both sides of a multiple of the period (`C81_violated`)."
  },
  {
   "property": "C82",
   "status": "proved",
   "theorems": [
    "DC.Num.C82_parameters",
    "DC.Num.C82_defined",
    "DC.Num.C82_means"
   ],
   "note": ""
  },
  {
   "property": "C83",
   "status": "partial",
   "theorems": [
    "DC.Num.C83_partial",
    "DC.Num.C83_iff",
    "DC.Num.C83_violated"
   ],
   "note": "Disagreements of the code with the statement, each proved on a witness: A length between 10 and 20: the CMA finds the middle, 0.5, and the gradient search is started from 15, out of the bounds (0, 1) given to it. Proved part: The gradient search is started from the point found by the CMA if every bound is the interval [0, 1]. Missing for the full property: all other bounds (`C83_violated`, `C83_iff`)."
  },
  {
   "property": "C84",
   "status": "partial",
   "theorems": [
    "DC.Txt.C84_cells",
    "DC.Txt.C84_partial",
    "DC.Txt.C84_violated"
   ],
   "note": "Disagreements of the code with the statement, each proved on a witness: A value holding a newline breaks its row in two lines. Proved part: A row takes one line with as many cells as values, if no value holds a newline nor a vertical bar. Missing for the full property: the other values (`C84_violated`)."
  },
  {
   "property": "C85",
   "status": "partial",
   "theorems": [
    "DC.Txt.C85_violated",
    "DC.Txt.C85_partial"
   ],
   "note": "Disagreements of the code with the statement, each proved on a witness: Two settings of the same method with different arguments, hence with different displays, are equal. Proved part: Equal settings with equal arguments are the same. Missing: equal settings with different arguments (`C85_violated`)."
  },
  {
   "property": "C86",
   "status": "proved",
   "theorems": [
    "DC.Txt.C86_selector"
   ],
   "note": ""
  },
  {
   "property": "C87",
   "status": "partial",
   "theorems": [
    "DC.Data.C87_partial",
    "DC.Data.C87_violated"
   ],
   "note": "Disagreements of the code with the statement, each proved on a witness: Iterating over an empty dataset never ends. Proved part: Iterating over a dataset which is not empty gives its objects in order. Missing: the empty dataset (`C87_violated`)."
  },
  {
   "property": "C88",
   "status": "partial",
   "theorems": [
    "DC.Data.C88_partial",
    "DC.Data.C88_violated"
   ],
   "note": "Disagreements of the code with the statement, each proved on a witness: Sorting a clustered dataset gives the labels of the objects to others. Proved part: Sorting leaves the labels where they are: objects keep their label when all labels are the same. Missing for the full property: the other labels (`C88_violated`)."
  },
  {
   "property": "C89",
   "status": "partial",
   "theorems": [
    "DC.Data.C89_partial",
    "DC.Data.C89_violated",
    "DC.Data.C89_single_violated"
   ],
   "note": "Disagreements of the code with the statement, each proved on a witness: The entries of the covariance matrix are not the covariances. For a single row, a number is returned instead of a matrix. Proved part: The entries of the covariance matrix are the covariances of the rows times n / (n - 1). Missing for the full property: equality (`C89_violated`), and a matrix for a single row (`C89_single_violated`)."
  },
  {
   "property": "C90",
   "status": "partial",
   "theorems": [
    "DC.Data.C90_within",
    "DC.Data.C90_doe",
    "DC.Data.C90_names_violated"
   ],
   "note": "Disagreements of the code with the statement, each proved on a witness: An attribute which is constant and sampled takes the sampled value: the constant is lost."
  },
  {
   "property": "C91",
   "status": "partial",
   "theorems": [
    "DC.Data.C91_axes",
    "DC.Data.C91_partial",
    "DC.Data.C91_violated",
    "DC.Data.C91_correlated_violated"
   ],
   "note": "Disagreements of the code with the statement, each proved on a witness: A dataset of one object with five attributes, hence all constant: two attributes have no axis. The same loss with five attributes none of which is constant. Proved part: With two or three attributes which are not constant, every common attribute is an axis exactly once. Missing for the full property: the other cases (`C91_violated`)."
  },
  {
   "property": "C92",
   "status": "partial",
   "theorems": [
    "DC.Data.C92_partial",
    "DC.Data.C92_violated"
   ],
   "note": "Disagreements of the code with the statement, each proved on a witness: Labels which are not indices of clusters raise an IndexError. Proved part: If the labels, read as indices, designate every cluster, as 0, 1, ..., n - 1 or 0, 1, ..., n - 2, -1 do, the element nearest to the mean is returned for every cluster. Missing for the full property: the other labels (`C92_violated`)."
  },
  {
   "property": "C93",
   "status": "partial",
   "theorems": [
    "DC.Data.C93_partial",
    "DC.Data.C93_violated"
   ],
   "note": "Disagreements of the code with the statement, each proved on a witness: With a label which is not one of the first natural numbers, objects are in no family. Proved part: If the labels are -1, 0, ..., n_clusters - 1, every object is in exactly one point family. Missing for the full property: the other labels (`C93_violated`)."
  },
  {
   "property": "C94",
   "status": "partial",
   "theorems": [
    "DC.Data.C94_partial",
    "DC.Data.C94_first",
    "DC.Data.C94_violated",
    "DC.Data.C94_last_violated"
   ],
   "note": "Disagreements of the code with the statement, each proved on a witness: The rows printed at the end for the last five objects are again those of the first five, whatever the dataset. So that the sixth object of a dataset of six objects is never shown. Proved part: A dataset of at most five objects is printed with all its objects, in order, under the titles. Missing for the full property: longer datasets (`C94_violated`)."
  },
  {
   "property": "C95",
   "status": "partial",
   "theorems": [
    "DC.Data.C95_width",
    "DC.Data.C95_short",
    "DC.Data.C95_long",
    "DC.Data.C95_partial",
    "DC.Data.C95_titles_violated"
   ],
   "note": "Disagreements of the code with the statement, each proved on a witness: With a common attribute `name` after an attribute of more than ten characters, nothing is printed: a local variable is read before it is set. Proved part: When `name` is not a common attribute, titles are printed; each is between spaces, and the cells of every object are aligned with the titles. `cap`, the capitalization, does not shorten strings. Missing for the full property: datasets with a common attribute `name` (`C95_titles_violated`)."
  },
  {
   "property": "C96",
   "status": "proved",
   "theorems": [
    "DC.Data.C96_rows",
    "DC.Data.C96_empty"
   ],
   "note": ""
  },
  {
   "property": "C97",
   "status": "partial",
   "theorems": [
    "DC.Data.C97_minkowski",
    "DC.Data.C97_orders",
    "DC.Data.C97_order_zero",
    "DC.Data.C97_length_violated",
    "DC.Data.C97_triangle_violated"
   ],
   "note": "Disagreements of the code with the statement, each proved on a witness: Vectors of different lengths raise a ValueError, unless one has a single coordinate: it is compared to each coordinate of the other, and the distance can be null between vectors of different lengths. For the order 1/2, the triangle inequality fails."
  },
  {
   "property": "C98",
   "status": "partial",
   "theorems": [
    "DC.Data.C98_merge",
    "DC.Data.C98_partial",
    "DC.Data.C98_violated"
   ],
   "note": "Disagreements of the code with the statement, each proved on a witness: With the labels -1 and 7, the object labeled 7 comes back as an outlier and conversely. Proved part: Splitting then merging gives back the objects with their labels, if the set of labels is enumerated as in `C48_labels_partial`. Missing for the full property: the other orders (`C98_violated`)."
  },
  {
   "property": "C99",
   "status": "partial",
   "theorems": [
    "DC.Types.C99_partial",
    "DC.Types.C99_violated"
   ],
   "note": "Disagreements of the code with the statement, each proved on a witness: An optional output and an optional input of different classes make match_variables raise. Proved part: When typematch answers on the types of connectable variables, match_variables gives, for each typed variable, the connectable variables whose types match. Missing for the full property: types on which typematch raises (`C99_violated`)."
  },
  {
   "property": "C100",
   "status": "partial",
   "theorems": [
    "DC.Types.C100_partial",
    "DC.Types.C100_violated",
    "DC.Types.C100_raises_violated"
   ],
   "note": "Disagreements of the code with the statement, each proved on a witness: No class matches its optional form. Comparing an other generic type with its optional form raises. Proved part: A list, a dictionary or a tuple type matches its optional form. Missing for the full property: the other types (`C100_violated`, `C100_raises_violated`)."
  },
  {
   "property": "C101",
   "status": "partial",
   "theorems": [
    "DC.Types.C101_partial",
    "DC.Types.C101_violated"
   ],
   "note": "Disagreements of the code with the statement, each proved on a witness: Two methods of same full name, such as methods of local classes of one function: the second one is given the arguments of the first. Proved part: After any history of inspections of methods none of which has the name of this one and other arguments, inspect_arguments gives the arguments of this method. Missing for the full property: methods of same name, `C101_violated`."
  },
  {
   "property": "C102",
   "status": "partial",
   "theorems": [
    "DC.Types.C102_partial",
    "DC.Types.C102_static_violated",
    "DC.Types.C102_keyword_violated"
   ],
   "note": "Disagreements of the code with the statement, each proved on a witness: `def f(x=1, y=2)`, without self: the schema shows x without its default. `def f(self, x, *, y=2)`: the schema has no attribute y. Proved part: The schema of a class, or of a method whose first parameter is self or cls, has as attributes the positional parameters that are not reserved, in order, each with its default. Missing for the full property: see `C102_static_violated`."
  },
  {
   "property": "C103",
   "status": "partial",
   "theorems": [
    "DC.Wkf.C103_steps",
    "DC.Wkf.C103_partial",
    "DC.Wkf.C103_class_violated",
    "DC.Wkf.C103_locked_violated",
    "DC.Wkf.C103_blocks_violated"
   ],
   "note": "Disagreements of the code with the statement, each proved on a witness: Two workflows which build instances of different classes compare equal, and do not compute the same value: `equivalent` compares the names of the metaclasses. Two workflows whose inputs are locked to different values compare equal: `equivalent` compares that they are locked. Two workflows with different numbers of blocks and of inputs compare equal. Proved part: Workflows of as many blocks and pipes, with the output at the same place, which compare equal are the same up to the identity of their variables and the order of their pipes: their inputs correspond one to one, with the same names, annotations and locks, and a value computed by one for some values of its inputs is computed by the other. What blocks which compare equal have in common is the hypothesis `hkind`. Missing: what the comparison of blocks does not look at (`C103_class_violated`, `C103_locked_violated`, `C103_blocks_violated`)."
  },
  {
   "property": "C104",
   "status": "partial",
   "theorems": [
    "DC.Wkf.C104_step_violated",
    "DC.Wkf.C104_symmetric_violated",
    "DC.Wkf.C104_partial"
   ],
   "note": "Disagreements of the code with the statement, each proved on a witness: A workflow with a step as the constructor of steps makes it by default cannot be compared with itself. `a == b` may raise an AttributeError although `b == a` is False. Proved part: A workflow is equal to itself, when every step has the index of a displayed variable. Missing: steps without such an index (`C104_step_violated`)."
  },
  {
   "property": "C105",
   "status": "partial",
   "theorems": [
    "DC.C105_partial",
    "DC.C105_tuple_violated",
    "DC.C105_slash_violated"
   ],
   "note": "Disagreements of the code with the statement, each proved on a witness: **C105** is violated by the code: a tuple which holds a shared object, given to an argument annotated as a tuple, is read back as a list. (Without pointers it is read back as a tuple.) **C105** is violated by the code: an object with a dictionary which has a shared object under a key with a slash is saved, but cannot be read back. (Without pointers it can.) Proved part: **C105.** An object is saved with pointers, and any JSON writing of the dictionary is read back as an object of the same class with the same attributes, up to the order of the keys of dictionaries and to the kind of sequences. The two objects are equal. Missing: the data is `Readable` (as in C12) and the keys are plain strings (`C105_slash_violated`); parts which are equal are assumed to have the same serialization (C13); the tuples which hold a reference become lists (`C105_tuple_violated`)."
  },
  {
   "property": "C106",
   "status": "partial",
   "theorems": [
    "DC.C106_partial",
    "DC.C106_slash_violated",
    "DC.C106_key_violated"
   ],
   "note": "Disagreements of the code with the statement, each proved on a witness: **C106** is violated by the code: a document with a reference under a key of a dictionary which has a slash cannot be read, although it stands for an object. **C106** is violated by the code: a reference whose key has a slash cannot be read. Proved part: **C106.** A JSON document whose references, once replaced, make it stand for an object, is read as this object (up to the order of the keys of dictionaries and to the kind of sequences), whatever the order of the entries of the document. In particular no cycle is found in its references, and each is read before it is used. Missing: keys of dictionaries or of references with slashes (`C106_slash_violated`, `C106_key_violated`); references to other parts of the document than the values of `_references`; classes with their own `dict_to_object`."
  },
  {
   "property": "C107",
   "status": "partial",
   "theorems": [
    "DC.Wkf.C107_values",
    "DC.Wkf.C107_result",
    "DC.Wkf.C107_restored",
    "DC.Wkf.C107_workflow",
    "DC.Wkf.C107_pipe",
    "DC.Wkf.C107_partial",
    "DC.Wkf.C107_violated",
    "DC.Wkf.C107_file_violated"
   ],
   "note": "Disagreements of the code with the statement, each proved on a witness: Violation: the values on pipes which are not memorized are not saved. A run saved after its first block cannot be continued once restored (`KeyError`), where the original run continues to its end. Violation: the values of the inputs of files are not saved, and the constructor of the restored state gives the input its default value in their place. The run ends as if it had been made with the default value. Proved part: Saving a run on the way and continuing what was restored gives the result, when the values which the blocks left to evaluate already received are saved and no input is a file. Missing: the values on pipes which are not memorized are lost (`C107_violated`), and so are files (`C107_file_violated`)."
  },
  {
   "property": "C108",
   "status": "partial",
   "theorems": [
    "DC.Wkf.C108_leading_violated",
    "DC.Wkf.C108_selector_violated",
    "DC.Wkf.C108_evaluated_violated",
    "DC.Wkf.C108_display_partial",
    "DC.Wkf.C108_export_partial"
   ],
   "note": "Disagreements of the code with the statement, each proved on a witness: **C108** A display which leads to the output of the workflow cannot be shown on a run: WorkflowError. **C108** Of two displays with the same selector, the first cannot be shown: WorkflowError. **C108** When blocks out of the way to the output were evaluated before the run was made of the state, a display which would have been shown otherwise is a KeyError. Proved part: **C108** The run made of an execution of the workflow exists; and, on this run, whatever displays and exports were asked before, the display of a block which is out of the way to the output is the first value which this block gives on the values that its inputs must hold, although the blocks of its branch were not executed and the values of most pipes were dropped. It is computed by evaluating exactly the missing blocks, each once if none of them gives values to several of them. Missing: a block which leads to the output, two displays with the same selector, and states whose secondary blocks were evaluated beforehand (see the theorems below). **C108** The same for the exports. Missing: as for `C108_display_partial`."
  },
  {
   "property": "C109",
   "status": "partial",
   "theorems": [
    "DC.Wkf.C109_branch",
    "DC.Wkf.C109_no_output",
    "DC.Wkf.C109_once_violated"
   ],
   "note": "Disagreements of the code with the statement, each proved on a witness: **C109** A missing block which gives values to two other missing blocks is evaluated twice for one display."
  },
  {
   "property": "C110",
   "status": "proved",
   "theorems": [
    "DC.Wkf.C110_inputs",
    "DC.Wkf.C110_enough"
   ],
   "note": ""
  },
  {
   "property": "C111",
   "status": "partial",
   "theorems": [
    "DC.Wkf.C111_generated",
    "DC.Wkf.C111_explicit_violated"
   ],
   "note": "Disagreements of the code with the statement, each proved on a witness: **C111** Displays with selectors of their own may clash, with each other and with a generated one."
  },
  {
   "property": "C112",
   "status": "partial",
   "theorems": [
    "DC.Wkf.C112_run_partial",
    "DC.Wkf.C112_kept",
    "DC.Wkf.C112_after_partial",
    "DC.Wkf.C112_secondary_violated",
    "DC.Wkf.C112_unwired_violated"
   ],
   "note": "Disagreements of the code with the statement, each proved on a witness: **C112** The reference path of a display of a run may designate nothing: KeyError, as long as the display was not shown, when its input comes from a block out of the way to the output. **C112** The display settings of a workflow are a ValueError when the displayed input of a display is an input of the workflow. Proved part: **C112** On a run, whatever displays and exports were asked before, the reference path of a display designates the value which its displayed input must hold, when this value comes from an input of the workflow or from a block which leads to the output. Missing: a display whose input comes from an other block, before it is shown, or comes from no pipe. **C112** Once the display was shown, its reference path designates the value which its displayed input must hold, wherever it comes from. Missing: displays which were not shown, or whose input comes from no pipe (`C112_secondary_violated`, `C112_unwired_violated`)."
  },
  {
   "property": "C113",
   "status": "partial",
   "theorems": [
    "DC.Arg.C113_partial",
    "DC.Arg.C113_measure_violated",
    "DC.Arg.C113_unread_violated",
    "DC.Arg.C113_class_violated",
    "DC.Arg.C113_union_violated",
    "DC.Arg.C113_sequence",
    "DC.Arg.C113_variadic_violated",
    "DC.Arg.C113_file"
   ],
   "note": "Disagreements of the code with the statement, each proved on a witness: **C113** A measure given for a measure is read as a dictionary, and one given for a float is refused. **C113** An object held by a dictionary, or given for an argument of type Any, is read as a dictionary. **C113** A builtin class is read as False. **C113** No number is accepted for a union of builtins, nor for an optional type whose None is written first. **C113** A tuple of any length is cut after its first element or refused. Proved part: **C113** An argument of the supported kinds is read from its saved form: the value obtained holds the same data, and is the very argument when the objects it holds keep their sequences in the annotated kinds. Missing: the cases of the theorems below."
  },
  {
   "property": "C114",
   "status": "partial",
   "theorems": [
    "DC.Arg.C114_partial",
    "DC.Arg.C114_union_partial",
    "DC.Arg.C114_union_read",
    "DC.Arg.C114_union_violated",
    "DC.Arg.C114_union_measure_violated",
    "DC.Arg.C114_unchecked_violated",
    "DC.Arg.C114_object_partial",
    "DC.Arg.C114_class_violated"
   ],
   "note": "Disagreements of the code with the statement, each proved on a witness: **C114** A document of the class with less arguments is refused: a missing argument is a TypeError, not a KeyError, so that the other class is never tried. **C114** A union whose type of most ancestors is a measure refuses all documents with a TypeError, the other types not being tried. **C114** None, whatever the type, an object for a number, a tuple which is too short, and any value for a dictionary, a literal or a measure, are accepted. **C114** An object of an other class than the expected one is accepted. Proved part: **C114** What is read from JSON data for an annotation made of builtins, lists, tuples, optional types and Any is of this type, with None allowed anywhere, and tuples possibly cut short. Missing: see the theorems below. **C114** What is read for a union of several types is what one of them reads, when those with more ancestors all lack a key. Missing: unions of which one of the first types raises another error (`C114_union_violated`, `C114_union_measure_violated`). **C114** What is read from a dictionary for an argument which is an object is an object, with the attributes of its class: the class which the dictionary names, whatever the annotation, and that of the annotation if it names none. Missing: the class read may be another one than that of the annotation (`C114_class_violated`)."
  },
  {
   "property": "C115",
   "status": "proved",
   "theorems": [
    "DC.Wkf.C115_values",
    "DC.Wkf.C115_missing",
    "DC.Wkf.C115_key_error",
    "DC.Wkf.C115_locked",
    "DC.Wkf.C115_name",
    "DC.Wkf.C115_method",
    "DC.Wkf.C115_run",
    "DC.Wkf.C115_call"
   ],
   "note": ""
  },
  {
   "property": "C116",
   "status": "partial",
   "theorems": [
    "DC.Arg.C116_positions_partial",
    "DC.Arg.C116_call_partial",
    "DC.Arg.C116_names_violated",
    "DC.Arg.C116_annotation_violated"
   ],
   "note": "Disagreements of the code with the statement, each proved on a witness: **C116** The entries named after the arguments, as `method_dict` writes them, are all ignored. **C116** An argument without annotation, when it is given, is a KeyError. Proved part: **C116** If the reading succeeds, the argument of each position is the value read, for its annotation, from the entry of this position; the arguments without entry are left out, so that their default values apply; other entries are ignored. Missing: entries under the names of the arguments, which are ignored, and arguments without annotation (`C116_names_violated`, `C116_annotation_violated`). **C116** The arguments of a call, saved under their positions, are read as arguments which hold the same data, each under its name. Missing: as for `C116_positions_partial`."
  },
  {
   "property": "C117",
   "status": "partial",
   "theorems": [
    "DC.Wkf.C117_form",
    "DC.Wkf.C117_history_partial",
    "DC.Wkf.C117_violated"
   ],
   "note": "Disagreements of the code with the statement, each proved on a witness: **C117** is violated after an edition which raises: asking to remove a spare input from its step raises, and the form then shows this input twice. Proved part: **C117** After any history of editions of inputs and (careful) editions of steps which return, the form shows each input once, as it is. Missing: editions of steps which are not careful (those of C33), and those which raise."
  },
  {
   "property": "C118",
   "status": "partial",
   "theorems": [
    "DC.Wkf.C118_runnable_partial",
    "DC.Wkf.C118_lock",
    "DC.Wkf.C118_default",
    "DC.Wkf.C118_reset",
    "DC.Wkf.C118_rename",
    "DC.Wkf.C118_locked_violated"
   ],
   "note": "Disagreements of the code with the statement, each proved on a witness: **C118** Resetting the default value of a locked input raises, but the input is left locked without default value: then every run raises, and so does the edition of the label of any input. Proved part: **C118** After any history of editions which return, the workflow can be run as soon as its inputs without default value are given. Missing: the editions which raise (`C118_locked_violated`)."
  },
  {
   "property": "C119",
   "status": "partial",
   "theorems": [
    "DC.Scr.C119_same_run",
    "DC.Scr.C119_partial",
    "DC.Scr.C119_runs",
    "DC.Scr.C119_documentation_violated",
    "DC.Scr.C119_default_violated",
    "DC.Scr.C119_lock_violated",
    "DC.Scr.C119_free_violated",
    "DC.Scr.C119_steps_violated",
    "DC.Scr.C119_quote_violated",
    "DC.Scr.C119_class_violated"
   ],
   "note": "Disagreements of the code with the statement, each proved on a witness: The workflow gets the documentation of the workflow in its blocks. The default value given by the user to the input of a block is lost. The script of a workflow with an input locked on a value given by the user raises a ValueError. The default value of a free variable is lost. The steps and the description of the workflow are lost. The name of a workflow with a quote in it makes a script which Python does not read. With two classes of the same name, the script builds a block of the other class. Proved part: C119. The script of a workflow, run in a new process, builds a workflow like it: the same blocks in the same order, workflows in blocks and blocks to repeat included, with ports which are alike (names, annotations, positions, default values, locks), pipes which join the counterparts, the same output, the same name; the variables of the new process are as they were. Missing: the ports must be as the constructors of the blocks make them, except for locks on inputs with default values; free variables have no default value; the texts must be read as they are between quotes and two classes must not share a name; the documentation is kept without workflows in blocks only; steps, description and detached variables are lost (see the theorems below)."
  },
  {
   "property": "C120",
   "status": "partial",
   "theorems": [
    "DC.Cat.C120_read_write_partial",
    "DC.Cat.C120_export_violated",
    "DC.Cat.C120_display_violated"
   ],
   "note": "Disagreements of the code with the statement, each proved on a witness: C120, violated: an `Export` is read with a class method in the place of its method. C120, violated: the label, the default value and the lock of the input of a deprecated display are lost. Proved part: C120, partial: a block built by its class, whose variables may have been labelled, given default values and locked, is read as it was written: same class, same arguments, same name, same position, same variables with their labels, default values and locks. Full statement: every block which can be written is read as it was. Missing: the method of an `Export` comes back as a class method, and the variables of the deprecated displays come back as new ones (see the theorems which follow); classes must be importable, default values must be read as they are written, and where the generic reader is used the texts must not be import paths."
  },
  {
   "property": "C121",
   "status": "partial",
   "theorems": [
    "DC.Cat.C121_equivalent_partial",
    "DC.Cat.C121_class_violated",
    "DC.Cat.C121_module_violated",
    "DC.Cat.C121_filter_violated",
    "DC.Cat.C121_export_violated",
    "DC.Cat.C121_selector_violated",
    "DC.Cat.C121_view_violated",
    "DC.Cat.C121_hash_partial",
    "DC.Cat.C121_hash_violated"
   ],
   "note": "Disagreements of the code with the statement, each proved on a witness: C121, violated: blocks which instantiate two classes with the same arguments are found equivalent. C121, violated: blocks which call a class method of two classes of the same name, in two modules, are found equivalent. C121, violated: filters which join their conditions with `and` and with `or` are found equivalent. C121, violated: exports by two methods, in a text and in a binary file, with two extensions, are found equivalent. C121, violated: displays by two selectors are found equivalent. C121, violated: views with two names are found equivalent. C121, violated: two blocks which are found equivalent have different hashes. Proved part: C121, partial: two blocks which are found equivalent, and agree on what `Told` lists, give the same outputs for the same inputs. Full statement: two equivalent blocks give the same outputs. Missing: the comparison does not look at the class of an `InstantiateModel`, at the module of the class of a `ClassMethod`, at the logical operator of a `Filter`, at the names of the views of a `MultiObject`, at the selector of a display, at the method, the extension and the kind of an `Export` (see the theorems which follow). C121, partial: two blocks which are found equivalent have the same hash. Full statement: so do all equivalent blocks. Missing: blocks which instantiate two classes whose names have not the same length are found equivalent and have not the same hash (see the next theorem)."
  },
  {
   "property": "C122",
   "status": "partial",
   "theorems": [
    "DC.Cat.C122_script_partial",
    "DC.Cat.C122_filter_violated",
    "DC.Cat.C122_attribute_violated",
    "DC.Cat.C122_position_violated",
    "DC.Cat.C122_multiplot_violated",
    "DC.Cat.C122_display_violated",
    "DC.Cat.C122_scatter_violated",
    "DC.Cat.C122_parallel_violated",
    "DC.Cat.C122_export_violated",
    "DC.Cat.C122_copy_violated",
    "DC.Cat.C122_name_violated"
   ],
   "note": "Disagreements of the code with the statement, each proved on a witness: C122, violated: the list of the filters of a `Filter` is not closed. C122, violated: the script of a `SetModelAttribute` does not import what it names. C122, violated: the position of a `ConcatenateStrings` is not written. C122, violated: the script of a `DeprecatedMultiPlot` names another class than the one it imports. C122, violated: the selector of a deprecated display, which is a text, has no class to write. C122, violated: a scatter view of one attribute is rebuilt with the letters of its name. C122, violated: a parallel view without attribute is rebuilt with one attribute whose name is empty. C122, violated: an `Export` which was read from its dict writes a script which does not import what it names. C122, violated: a `ClassMethod` which was copied writes a script which does not import what it names. C122, violated: a class of the user with the name of a class of blocks is called in the place of this one. Proved part: C122, partial: the declaration of a block in a script, run after imports which hold those of the block and no two classes of the same name, calls the constructor of the block with its arguments, its name and its position; so that it builds the block itself when its variables have not been set. Full statement: every declaration which is written builds its block. Missing: what `Writable` excludes (see the theorems which follow); the blocks which hold workflows are in Workflow/ScriptProps.lean."
  },
  {
   "property": "C123",
   "status": "partial",
   "theorems": [
    "DC.Cat.C123_copy_evaluates",
    "DC.Cat.C123_outputs",
    "DC.Cat.C123_model",
    "DC.Cat.C123_archive",
    "DC.Cat.C123_copy_equivalent_partial",
    "DC.Cat.C123_lock_violated",
    "DC.Cat.C123_selector_violated",
    "DC.Cat.C123_filter_violated"
   ],
   "note": "Disagreements of the code with the statement, each proved on a witness: C123, violated: the copy of a block with a locked input has no locked input, and is not equivalent to it. C123, violated: the selector of the copy of a display is no view, but an attribute. C123, violated: of two filters which differ by their names only, the copy of a block has one name. Proved part: C123, partial: the copy of a block which has no locked input is equivalent to it. Full statement: the copy of every block is equivalent to it. Missing: the copy of a block does not keep the locks of its inputs, nor their default values and labels (see the next theorem)."
  },
  {
   "property": "C124",
   "status": "partial",
   "theorems": [
    "DC.Xl.C124_tabular_partial",
    "DC.Xl.C124_flat_partial",
    "DC.Xl.C124_same_class_violated",
    "DC.Xl.C124_lists_violated",
    "DC.Xl.C124_dict_violated",
    "DC.Xl.C124_text_violated",
    "DC.Xl.C124_round_violated",
    "DC.Xl.C124_rows_violated",
    "DC.Xl.C124_nested_violated",
    "DC.Xl.C124_named_violated"
   ],
   "note": "Disagreements of the code with the statement, each proved on a witness: Two attributes of one class are both read as the first one. Two lists of one class are both read as the list of all the objects. An object with a dictionary of objects is not read: a sheet is asked for by a pair. A text which is a literal is read as its value, an empty one as no value, and one which looks like a formula is lost. A number is read with six decimals. Boxes in a list: the lists they hold are read as one object, whose name is that of its class. Boxes in a list: the objects of the objects they hold are read as their paths. An attribute whose name contains that of a container is read as a list. Proved part: Part of C124: an object which fits in tables is read from its Excel file equal to what was written. The sheet of each class holds legible values only, or one object whose links lead to the first object or to all the objects of sheets which follow it, or several objects whose linked objects hold legible values only. Missing: what does not fit, which is read otherwise or not at all (see the violations). Part of C124, for objects whose attributes are legible values, objects of legible values, and lists of objects of legible values, each attribute with objects of its own class: they are read as they were written. Missing: two attributes of a class, dictionaries, deeper objects, and values which are not legible (see the violations)."
  },
  {
   "property": "C125",
   "status": "proved",
   "theorems": [
    "DC.Xl.C125_sheets",
    "DC.Xl.C125_links",
    "DC.Xl.C125_paths"
   ],
   "note": ""
  },
  {
   "property": "C126",
   "status": "partial",
   "theorems": [
    "DC.Xl.C126_rows",
    "DC.Xl.C126_duplicates_partial",
    "DC.Xl.C126_refused",
    "DC.Xl.C126_duplicates_violated"
   ],
   "note": "Disagreements of the code with the statement, each proved on a witness: Two columns without name hide two columns of one name: the header is accepted, and the last column is taken. Proved part: C126: a header with no empty column, in which a name occurs twice, is refused. Missing: headers with empty columns (`C126_duplicates_violated`)."
  },
  {
   "property": "C127",
   "status": "partial",
   "theorems": [
    "DC.Wkf.C127_partial",
    "DC.Wkf.C127_run_partial",
    "DC.Wkf.C127_default_violated",
    "DC.Wkf.C127_shared_violated"
   ],
   "note": "Disagreements of the code with the statement, each proved on a witness: Violation: the default value which the user removed from an input comes back in the copy. The copy of a state which waits for this input does not wait for it: its block can be evaluated. Violation: the values on the pipes of the copy are those of the original, not copies of them. The values are taken as references, and a copy of `x` as the new reference `x + 100`: the input is copied, the value of the pipe is not. Proved part: The copy of a state of execution, however far it was run, succeeds. It is the state it was copied from, on a workflow of other variables; the original workflow is kept. Any operations then give the same results and the same states, or the same error, on the copy and on the original. `m` tells which pipes are memorized, `hcp` and `hco` say that the values of the inputs and the output are copied to equal values. Missing: inputs of blocks which hold no value but have a default value in the class of their block (`C127_default_violated`); the values on the pipes are not copied but shared (`C127_shared_violated`). The same for the copy of a run, which is made of a state and where the values of the pipes which are not memorized were dropped. Missing: see `C127_default_violated` and `C127_shared_violated`."
  },
  {
   "property": "C128",
   "status": "partial",
   "theorems": [
    "DC.Wkf.C128_equal",
    "DC.Wkf.C128_copy",
    "DC.Wkf.C128_values",
    "DC.Wkf.C128_file_violated",
    "DC.Wkf.C128_restored_violated"
   ],
   "note": "Disagreements of the code with the statement, each proved on a witness: Violation: states which only differ by a file are made to be equal, but are not unless this file is the first input: its hash is part of the hash of the state, multiplied by the number of the input. Violation: a state which was saved and restored is not equal to the original, when a value on a pipe which is not memorized was dropped: everything which `_data_eq` compares is equal, but the number of the values is part of the hash."
  },
  {
   "property": "C129",
   "status": "partial",
   "theorems": [
    "DC.Scr.C129_partial",
    "DC.Scr.C129_plain_partial",
    "DC.Scr.C129_all_values",
    "DC.Scr.C129_object_text",
    "DC.Scr.C129_objects_violated",
    "DC.Scr.C129_locked_violated",
    "DC.Scr.C129_text_violated",
    "DC.Scr.C129_nested_violated"
   ],
   "note": "Disagreements of the code with the statement, each proved on a witness: Two objects of the same class are written with the same text: whatever this text stands for, one of them is not read back. With a locked input, the value of the next input is the one of the locked input: the workflow adds its first input and a locked 5, and doubles its last input; the run with the values 1 and 2 gives 4, the script of this run gives 10. When the documentation mentions the first input of the first block, the script does not give its value. When the second block is a workflow whose second block receives a pipe, the script does not give the value of the second block: it takes the name of the inner block for its own. Proved part: The script of a run, when the workflow can be written by a script (see C119), the script shows the inputs of blocks only where pipes end, and the text of each value stands for this value: it rebuilds the workflow and runs it; this run ends too, with the same output, the same values of the inputs and the same values on the pipes. What is missing: with a locked input, values go to the wrong inputs; an input whose name is written elsewhere, in a text or in a workflow of a block, gets no value; and the values which are objects or files are replaced by texts to fill in (see the theorems below). The same for a workflow of simple blocks without locked inputs, where no text contains `.inputs[`. Missing: other blocks, locked inputs and such texts (`C129_nested_violated`, `C129_locked_violated`, `C129_text_violated`)."
  },
  {
   "property": "C130",
   "status": "partial",
   "theorems": [
    "DC.Sch.C130_property_partial",
    "DC.Sch.C130_valid_violated",
    "DC.Sch.C130_raises_violated",
    "DC.Sch.C130_default_violated",
    "DC.Sch.C130_inner_violated"
   ],
   "note": "Disagreements of the code with the statement, each proved on a witness: **C130** is violated: the list of checks of a schema is always empty and no class is ever reported invalid, even when the checks of its parameters fail and it has no form: `Dict[int, int]`, for instance. **C130** is violated: whether a class is valid raises AttributeError when a parameter is a union of other types than classes of objects, `Union[int, str]` for instance, and ValueError on `Dict[str]`. **C130** is violated: a mutable default value of a list or of a dictionary is not reported by the check meant for it: the outcome is the same as without default. **C130** is violated: annotations within others are not checked: a list of dictionaries from int, which has no form, passes. Proved part: The checks of a parameter itself find no error exactly when the arguments of its annotation are what they should be, whatever its default. Missing for the full property: annotations within are not checked, nor those in `Optional[...]`; and see `C130_valid_violated`, `C130_raises_violated` and `C130_default_violated`."
  },
  {
   "property": "C131",
   "status": "partial",
   "theorems": [
    "DC.Sch.C131_partial",
    "DC.Sch.C131_annotated",
    "DC.Sch.C131_form_partial",
    "DC.Sch.C131_editable_violated",
    "DC.Sch.C131_editable",
    "DC.Sch.C131_optional_union_violated",
    "DC.Sch.C131_optional_literal_violated",
    "DC.Sch.C131_class_default_violated",
    "DC.Sch.C131_content_partial",
    "DC.Sch.C131_reference_partial",
    "DC.Sch.C131_widget_partial",
    "DC.Sch.C131_items"
   ],
   "note": "Disagreements of the code with the statement, each proved on a witness: **C131** is violated: the entry of an attribute which the class declares as non-editable tells that it can be edited. **C131** is violated: an optional union, `Optional[Union[A, B]]`, which is `Union[A, B, None]`, has no form. **C131** is violated: a list of optional literals, or of optional tuples of any length, has no form, although literals and tuples have one. **C131** is violated: an argument `Optional[Type[A]]` whose default is None has no form. Proved part: The form of a class has one entry for each parameter of its constructor that is not reserved, in order, which tells its name, its annotation, its documentation, and its default value when it has one; these annotations are among those with a form. Missing for the full property: see `C131_editable_violated`, `C131_optional_union_violated`, `C131_optional_literal_violated` and `C131_class_default_violated`. A class has a form if the annotations of its parameters are among those with a form, and their defaults are proper to them. Missing: the other annotations (`C131_optional_union_violated`, `C131_optional_literal_violated`) and defaults (`C131_class_default_violated`). The form of a parameter asks for a value of its annotation: the form of a list or a tuple holds those of its elements, of a union the names of its classes, and so on. Missing for the full property: see `C131_partial`. The form of a reference to a method, an attribute or a view of a class asks for a class and a name: the class is the one of the annotation by default, and there is none for `Type`; it is asked for with its own key and title, and can be edited if the reference can; for a view it tells the decorator. Missing for the full property: see `C131_partial`. The form of an annotation asks for the widget of its kind. For lists, see `C131_content_partial`. Missing for the full property: see `C131_partial`."
  },
  {
   "property": "C132",
   "status": "partial",
   "theorems": [
    "DC.Sch.C132_partial",
    "DC.Sch.C132_declared_partial",
    "DC.Sch.C132_references_partial",
    "DC.Sch.C132_typing_violated",
    "DC.Sch.C132_undefined_violated",
    "DC.Sch.C132_optional_violated",
    "DC.Sch.C132_mutable_violated",
    "DC.Sch.C132_measure_violated"
   ],
   "note": "Disagreements of the code with the statement, each proved on a witness: **C132** is violated: a reference to a method or an attribute of what is no class, such as a list of objects, has no default value, but a TypeError. **C132** is violated: without default, a file, an argument that takes any value, a literal or an optional argument is given the mark of undefined values, and not None. **C132** is violated: the default object of an optional argument is in the dictionary itself, and not the dictionary that stands for it, as it is when the argument is not optional. **C132** is violated: the default of a list, of an iterator or of a dictionary is dropped, in the default values and in the form alike. **C132** is violated for measures: the class of a default measure is lost, an int is refused although it is a proper value of a measure, and without default the class in the dictionary is not the name of any class of measures. Proved part: The default dictionary of a class has one entry for each parameter of its constructor that is not reserved, in order, and `object_class`; the entry stands for the default of the parameter, or for no value when it has none. Missing for the full property: entries for other annotations, see `C132_undefined_violated`, `C132_optional_violated`, `C132_mutable_violated` and `C132_measure_violated`. The default value of a schema has one entry for each of these parameters that declare a default, in order, and no other. Missing: see the `_violated` theorems of C132. Without default, a reference to a method, an attribute or a view of a class of objects is one without name on this class, and `Type[...]` of it is this class; for `Type` the reference is on no class. Missing for the full property: see `C132_partial`."
  },
  {
   "property": "C133",
   "status": "partial",
   "theorems": [
    "DC.Sch.C133_class_partial",
    "DC.Sch.C133_class_violated",
    "DC.Sch.C133_partial",
    "DC.Sch.C133_unknown_violated",
    "DC.Sch.C133_blank_violated",
    "DC.Sch.C133_mark_violated",
    "DC.Sch.C133_check_violated",
    "DC.Sch.C133_check_partial"
   ],
   "note": "Disagreements of the code with the statement, each proved on a witness: **C133** is violated for classes: one documented name without annotation, after others which are annotated, and the documentation of the class and of all of its attributes is lost. **C133** is violated: one documented name which is not that of an annotated parameter, and the descriptions of all the parameters are lost. **C133** is violated: with a blank before the colon (`:param x : A size`), or with the type before the name (`:param int x: A size`), the descriptions are lost. **C133** is violated: a description which mentions `:type ` is cut there. **C133** is violated: `_check_docstring`, which returns whether the docstring is proper, raises KeyError or ValueError on an improper one: there is no exception but these for a name which is not annotated, or for `:param` without colon. Proved part: C133, for classes: with a well written docstring whose parameters are annotated, the schema of the class is documented by the beginning of the docstring, and each of its attributes by the last text given for it, if any. Missing for the full property: see `C133_class_violated`. **C133** In a docstring made of a description, of `:param name: text` for some parameters, possibly with `:type`, and possibly of `:return:`, where the texts hold no mark and the names are those of annotated parameters whose annotations have a string, the description is the beginning and the description of each parameter is the last text given for it, without the blanks at its ends; the parameters not documented have an empty description. Missing for the full property: docstrings written otherwise, see `C133_unknown_violated`, `C133_blank_violated`, `C133_mark_violated`. What `_check_docstring` accepts is a docstring that can be read: there is one, and it is parsed; nothing is refused but a class without docstring and a TypeError. Missing: improper docstrings are not refused but raise (`C133_check_violated`)."
  },
  {
   "property": "C134",
   "status": "partial",
   "theorems": [
    "DC.Wkf.C134_partial",
    "DC.Wkf.C134_returns",
    "DC.Wkf.C134_source",
    "DC.Wkf.C134_violated"
   ],
   "note": "Disagreements of the code with the statement, each proved on a witness: Some workflows without cycles have no layout: KeyError is raised for two blocks which give to the same third one, when the first also begins a longer path of which the second is no part. Proved part: When a layout is returned, each block and each non-block variable is in exactly one column, no column is empty, and each pipe goes from a column to a later one of the same graph. Missing: the layout is not always returned, see `C134_violated`; it is if the conditions of `C134_returns` hold."
  },
  {
   "property": "C135",
   "status": "partial",
   "theorems": [
    "DC.View.C135_settings",
    "DC.View.C135_partial",
    "DC.View.C135_all",
    "DC.View.C135_unknown",
    "DC.View.C135_picture_violated",
    "DC.View.C135_tree_violated",
    "DC.View.C135_violated",
    "DC.View.C135_twice_violated",
    "DC.View.C135_read_violated"
   ],
   "note": "Disagreements of the code with the statement, each proved on a witness: **C135** (pictures) is violated: no display calls a method decorated as a picture, whatever the class written as usual. **C135** (tree) is violated: the display of the structure tree of every object is a traceback without data, unless an other display takes its selector. **C135** (result) is violated by displays with the same selector: the first one is displayed twice, and the second one never, whatever the second method returns. **C135** (settings) is violated by a method with two decorators: a method decorated as a plot and as a CAD view has two displays, with the same selector and the type of the outer decorator. **C135** (settings) is violated by decorators which are not names: one such decorator on one method leaves the class without displays. Proved part: **C135** (result): asking the display of a decorated method, of a class written as usual in which no two displays have the same selector, shows the result of this method. Missing: the settings of classes not written as usual, and displays with the same selector."
  },
  {
   "property": "C136",
   "status": "partial",
   "theorems": [
    "DC.View.C136_formats",
    "DC.View.C136_save",
    "DC.View.C136_unknown",
    "DC.View.C136_partial",
    "DC.View.C136_zip",
    "DC.View.C136_read",
    "DC.View.C136_taken_violated",
    "DC.View.C136_docx_violated",
    "DC.View.C136_stream_violated",
    "DC.View.C136_violated"
   ],
   "note": "Disagreements of the code with the statement, each proved on a witness: **C136** (decorated methods) is violated by selectors taken by all objects: exporting under \"json\" never writes what a method decorated with this selector writes, but what `save_to_stream` does. **C136** (decorated methods) is violated by documents: a method decorated as a docx export which writes bytes, as such documents are, cannot be exported, and the object has no archive at all. **C136** (archives as results) is violated: what `to_zip_stream` returns is never the archive, but a closed handle on its last entry. **C136** (archives) is violated by formats with the same extension: the archive of an object with a decorated sheet holds two entries of the same name, and reading it gives the sheet of the method only, not the one of the object. Proved part: **C136** (decorated methods): in a class written as usual, exporting under the selector of a decorated method, which no other decorated method nor any of json, xlsx and docx has, writes what this method writes. Missing: selectors used twice or taken by those, and methods that do not write what their decorator tells."
  },
  {
   "property": "C137",
   "status": "partial",
   "theorems": [
    "DC.View.C137_partial",
    "DC.View.C137_valid",
    "DC.View.C137_raises",
    "DC.View.C137_computed",
    "DC.View.C137_violated",
    "DC.View.C137_info_violated"
   ],
   "note": "Disagreements of the code with the statement, each proved on a witness: **C137** (displays) is violated: the check of displays passes for an object all of whose views raise. **C137** (valid) is violated at the level of information: no object is valid, the checks which pass being above this level. Proved part: **C137**: when the checks of the platform are computed, they are five, which tell in this order whether the object read again is the same, whether its copy is, whether its dictionary can be stored, and whether its displays and its schemas are computed and written. Missing: an object whose dictionary or copy raises has no checks, the error is raised; and views that raise are not told (see `C137_violated`)."
  },
  {
   "property": "C138",
   "status": "partial",
   "theorems": [
    "DC.Wkf.C138_settings",
    "DC.Wkf.C138_partial",
    "DC.Wkf.C138_documentation",
    "DC.Wkf.C138_all_partial",
    "DC.Wkf.C138_violated",
    "DC.Wkf.C138_documentation_violated",
    "DC.Wkf.C138_state_violated"
   ],
   "note": "Disagreements of the code with the statement, each proved on a witness: **C138**, violated: as soon as one display of the workflow is a deprecated one, or displays an input which comes from no pipe, no display of the run can be shown, not even its documentation: the settings raise. **C138**, violated: the display of a block whose selector is that of the documentation cannot be asked: the documentation is shown. **C138**, violated: a state which is not a run shows nothing, although it has settings. Proved part: **C138** (result): on a run, whatever displays and exports were asked before, asking a display by its selector shows the first value which the block gives on the values that its inputs must hold, with the type of the block and the path of what it displays; a block which gives nothing is shown as failed. Missing: a block which leads to the output, two displays with the same selector or one with the selector of the documentation, deprecated displays, displayed inputs which come from no pipe. **C138** (all): when each display of the workflow is out of the way to the output, has a selector of its own, gives a value and can be shown, the displays of the run are its documentation, then each display, in order, as expected, whatever was asked before. Missing: as for `C138_partial`; a display which cannot be serialized makes the list raise."
  },
  {
   "property": "C139",
   "status": "partial",
   "theorems": [
    "DC.Wkf.C139_formats",
    "DC.Wkf.C139_partial",
    "DC.Wkf.C139_file_violated",
    "DC.Wkf.C139_lookup_violated",
    "DC.Wkf.C139_taken_violated"
   ],
   "note": "Disagreements of the code with the statement, each proved on a witness: **C139**, violated: the file saved by the export of a block of a run, when the block gives a file, is made with the asked extension but nothing is written in it. **C139**, violated: the format of an export block is never found by its selector on a state. **C139**, violated: two exports of the same file name and extension make an archive in which only the last one can be read by its name. Proved part: **C139** (archive): on a run, whatever was asked before, when each export block which is not an archive is out of the way to the output and gives a file of its kind, the streams of the archive of the run are, in the order of the blocks, these files with their names and contents. Missing: an export block which leads to the output, and the files of an archive which have the same name."
  },
  {
   "property": "C140",
   "status": "partial",
   "theorems": [
    "DC.C140_partial",
    "DC.C140_file_violated",
    "DC.C140_keys_violated",
    "DC.C140_name_violated",
    "DC.C140_stream_violated"
   ],
   "note": "Disagreements of the code with the statement, each proved on a witness: **C140** is violated by the code: an object which holds a file object is serialized, but it is never saved: whatever the files and the name, a TypeError is raised. **C140** is violated by the code: an object which holds a dictionary with an integer key is read back with a string as the key, and is not equal to the object which was saved. **C140** is violated by the code: a file saved under a name without `.json` cannot be read under the name which was given, whatever the object. **C140** is violated by the code: an object saved in a stream is never read back from this stream, even rewound: a text stream cannot be read by `from_json_stream`, and a binary stream cannot be written by `save_to_stream`. Proved part: **C140.** An object saved in a file, under a name to which `.json` is added if it is missing, is read back from this file as an object of the same class with the same attributes, up to the order of the keys of dictionaries and to the kind of sequences. The two objects are equal, and the other files are unchanged. Missing: file objects (`C140_file_violated`), integer keys (`C140_keys_violated`), reading under the name which was given (`C140_name_violated`), streams (`C140_stream_violated`), and what is missing in C105."
  },
  {
   "property": "C141",
   "status": "partial",
   "theorems": [
    "DC.C141_violated",
    "DC.C141_partial"
   ],
   "note": "Disagreements of the code with the statement, each proved on a witness: **C141** is violated by the code: when the saving of an object fails, the file is left unreadable, whatever it was before. Proved part: **C141.** The saving of an object, even if it fails, changes no other file than the one of the given name, to which `.json` is added if it is missing. Missing: this file is lost when the saving fails (`C141_violated`)."
  },
  {
   "property": "C142",
   "status": "partial",
   "theorems": [
    "DC.Docx.C142_partial",
    "DC.Docx.C142_level_violated",
    "DC.Docx.C142_dashes_violated",
    "DC.Docx.C142_hashes_violated",
    "DC.Docx.C142_cells_violated",
    "DC.Docx.C142_table_violated",
    "DC.Docx.C142_name"
   ],
   "note": "Disagreements of the code with the statement, each proved on a witness: **C142** is violated by the code: whatever its level, a heading is written in the document as a title (level 0), when it has no other `#` than those at its beginning. **C142** is violated by the code: a line of text with three dashes is left out of the document. **C142** is violated by the code: a text with a heading which has more than nine `#` makes no document. **C142** is violated by the code: the empty cell at the beginning of a row is left out. **C142** is violated by the code: the rows of a table are written as tables of one row. Proved part: **C142.** The Word document of a markdown text begins with its headings, then has one item for each line of the text which is not blank and holds no group of three dashes, in order: its text as a heading, a table of one row whose cells are between the bars, or a paragraph. Missing: the levels of the headings inside the document (`C142_level_violated`), the lines with three dashes (`C142_dashes_violated`), the lines with more than nine `#` (`C142_hashes_violated`), the empty cells at the ends of rows (`C142_cells_violated`), the rows of a table in one table (`C142_table_violated`)."
  },
  {
   "property": "C143",
   "status": "proved",
   "theorems": [
    "DC.Tree.C143_regular"
   ],
   "note": ""
  },
  {
   "property": "C144",
   "status": "proved",
   "theorems": [
    "DC.Tree.C144_decision",
    "DC.Tree.C144_sound",
    "DC.Tree.C144_initial"
   ],
   "note": ""
  },
  {
   "property": "C145",
   "status": "partial",
   "theorems": [
    "DC.Tree.C145_violated",
    "DC.Tree.C145_decision_violated",
    "DC.Tree.C145_partial"
   ],
   "note": "Disagreements of the code with the statement, each proved on a witness: **C145** is violated by the code: once a regular tree generator has given its solutions, it gives none when asked to generate again, because it keeps the finished tree. **C145** is violated by the code: the same with a decision tree generator. Proved part: **C145.** A regular tree generator from which the first solution has been taken, and which is asked to generate again, gives the same solutions as it would have given, this one included. Missing: a generation which has been used to its end gives nothing more (`C145_violated`, `C145_decision_violated`)."
  },
  {
   "property": "C146",
   "status": "partial",
   "theorems": [
    "DC.Vis.C146_partial",
    "DC.Vis.C146_label_violated",
    "DC.Vis.C146_long_violated",
    "DC.Vis.C146_other_violated"
   ],
   "note": "Disagreements of the code with the statement, each proved on a witness: **C146** is violated by the code: a graph with a node which has a label and no name cannot be shown. **C146** is violated by the code: two nodes named by long texts have the same label. **C146** is violated by the code: nodes which are objects are shown with no text. Proved part: **C146.** The data shown for a graph has one item for each node, in order, with distinct ids, which tells the node, and one item for each edge, in order, between the ids of its ends, with an arrow if the graph is directed. Missing: nodes with a label and no name (`C146_label_violated`), long labels of nodes without a name, which are only in the title (`C146_long_violated`), nodes which are neither strings nor integers, which are not told (`C146_other_violated`)."
  },
  {
   "property": "C147",
   "status": "partial",
   "theorems": [
    "DC.C147_partial",
    "DC.C147_raises_violated",
    "DC.C147_measure_violated",
    "DC.C147_class_violated"
   ],
   "note": "Disagreements of the code with the statement, each proved on a witness: **C147** is violated by the code: for an object which has an attribute that cannot be serialized, no answer is given: the error of the serialization is raised. **C147** is violated by the code: a measure can be written, but is said not to be serializable. **C147** is violated by the code: a class can be written by its name, but is said not to be serializable. Proved part: **C147.** A value which `is_serializable` accepts can be written as JSON data, and a value without bare classes or measures which can be written is accepted. Missing: it raises instead of answering for some objects (`C147_raises_violated`), and refuses measures and classes which can be written (`C147_measure_violated`, `C147_class_violated`)."
  },
  {
   "property": "C148",
   "status": "partial",
   "theorems": [
    "DC.Data.C148_mean",
    "DC.Data.C148_variances",
    "DC.Data.C148_covariance_partial",
    "DC.Data.C148_variances_violated",
    "DC.Data.C148_single_violated"
   ],
   "note": "Disagreements of the code with the statement, each proved on a witness: **C148** is violated by the code: `variances()` is not the diagonal of `covariance_matrix()`. **C148** is violated by the code: with a single common attribute, the covariance matrix is a number. Proved part: With at least two objects and two common attributes, the covariance matrix has one entry for each pair of common attributes: the covariance of their values, times n / (n - 1). Missing: this factor, by which its diagonal is not `variances()` (`C148_variances_violated`), and a single common attribute (`C148_single_violated`)."
  },
  {
   "property": "C149",
   "status": "partial",
   "theorems": [
    "DC.Data.C149_partial",
    "DC.Data.C149_outliers_violated",
    "DC.Data.C149_empty_violated",
    "DC.Data.C149_distances",
    "DC.Data.C149_weighted"
   ],
   "note": "Disagreements of the code with the statement, each proved on a witness: **C149** is violated by the code: with outliers, there is one more list of means than clusters. **C149** is violated by the code: a dataset without objects, which has no cluster, raises an error. Proved part: **C149.** `mean_clusters` gives one list of means for each label, in the order in which Python enumerates them: the means of the attributes which the objects with this label have, over these objects. Missing: one list is given for the outliers, which are not a cluster (`C149_outliers_violated`); nothing is given without objects (`C149_empty_violated`)."
  },
  {
   "property": "C150",
   "status": "partial",
   "theorems": [
    "DC.Wkf.C150_settings",
    "DC.Wkf.C150_partial",
    "DC.Wkf.C150_spare_violated"
   ],
   "note": "Disagreements of the code with the statement, each proved on a witness: **C150** A display is offered although it needs an input which the user was asked for at no step: the value to display is not determined by what the steps gave. Proved part: **C150** Whenever a display is offered at a step, and no spare input is needed for it, the inputs of this step and of the steps before it determine the output to display, with the locked inputs. Missing: the displays of outputs which need an input placed in no step (`C150_spare_violated`)."
  },
  {
   "property": "C151",
   "status": "partial",
   "theorems": [
    "DC.Wkf.C151_partial",
    "DC.Wkf.C151_none",
    "DC.Wkf.C151_steps",
    "DC.Wkf.C151_input_violated"
   ],
   "note": "Disagreements of the code with the statement, each proved on a witness: **C151** A display can be added on an input of a block, but computing it is a ValueError. Proved part: **C151** The display of a step on an output shows the value which the values given by the user, and the default values of the other inputs, determine for this output; it raises when they determine none, or when the object cannot be shown. Missing: a display on an input of a block, which `add_step_display` accepts (`C151_input_violated`)."
  },
  {
   "property": "C152",
   "status": "partial",
   "theorems": [
    "DC.Wkf.C152_partial",
    "DC.Wkf.C152_last",
    "DC.Wkf.C152_violated",
    "DC.Wkf.C152_bounds"
   ],
   "note": "Disagreements of the code with the statement, each proved on a witness: **C152** In every run which ends, whatever the workflow, the callback is told more than one, and then less than before. Proved part: **C152** The callback of a run is told, after each block, the fraction of the blocks evaluated, and in between what the method of the block tells, counted from the fraction reached: the values told are exactly these, in the order in which the blocks are evaluated. Missing: once a block is evaluated, a value which is too high is told first (`C152_violated`)."
  },
  {
   "property": "C153",
   "status": "partial",
   "theorems": [
    "DC.Wkf.C153_same",
    "DC.Wkf.C153_document_violated",
    "DC.Wkf.C153_partial",
    "DC.Wkf.C153_violated"
   ],
   "note": "Disagreements of the code with the statement, each proved on a witness: **C153** A completed run is not run again from a document: whatever the workflow, the document and the method, `run_again` included, reading the arguments raises `NotImplementedError`, even for a document of which the workflow reads the arguments. **C153** Without callback, as is the default, running again raises a TypeError, whenever the workflow can be run. Proved part: **C153** A completed run is run again, with a callback which does not raise, as its workflow is run: with the same results and the same errors. Missing: without callback it raises (`C153_violated`)."
  },
  {
   "property": "C154",
   "status": "partial",
   "theorems": [
    "DC.Calls.C154_partial",
    "DC.Calls.C154_untyped",
    "DC.Calls.C154_violated"
   ],
   "note": "Disagreements of the code with the statement, each proved on a witness: Keyword-only parameters have no input, whatever the signature: the inputs are those of the positional parameters. Proved part: For every signature all of whose positional parameters other than self, cls and progress_callback are typed, the block has one input for each of them, in their order, with its name, its default if there is one, and its type. Missing for the full property: keyword-only parameters (`C154_violated`)."
  },
  {
   "property": "C155",
   "status": "partial",
   "theorems": [
    "DC.Calls.C155_class_partial",
    "DC.Calls.C155_instantiate_partial",
    "DC.Calls.C155_method_partial",
    "DC.Calls.C155_callback_partial",
    "DC.Calls.C155_twice_violated",
    "DC.Calls.C155_keyword_violated",
    "DC.Calls.C155_callback_violated",
    "DC.Calls.C155_renamed_violated",
    "DC.Calls.C155_display_partial"
   ],
   "note": "Disagreements of the code with the statement, each proved on a witness: Whenever the body of a method with an optional progress_callback raises a TypeError, it is run a second time, from the state its first run left, and the block gives what this second run gives. No class, class method or method with a keyword-only parameter without default can be called by a block, whatever the values of its inputs: a TypeError, unless this parameter is the progress_callback of a method. Nor can a class or a class method with a progress_callback without default. Nor can anything without `**kwargs` once an input was given a name which is not the one of a parameter: the name of an input is not only a label. Proved part: A class method or static method block, all of whose inputs have values, runs the method once: each parameter receives the value of the input of its name, the others their default; and the block gives what the method returns, or raises what it raises. Missing for the full property: parameters without default that have no input, `C155_keyword_violated` and `C155_callback_violated`. The same for a block that instantiates a class. Missing: see the `_violated` theorems of C155. A block that calls a method of its model without parameter progress_callback runs it once, as above, and gives its result and the model. Missing: methods with such a parameter (`C155_twice_violated`, `C155_callback_violated`). A block that calls a method of its model which has a parameter progress_callback (even without default), runs it once, the callback being given to this parameter, unless the body raises a TypeError. Missing: `C155_twice_violated`. A display block runs the display method once, with the arguments of the display when it takes all of them, and with its defaults when it does not, unless its body raises a TypeError. Missing: methods whose body raises a TypeError, which run twice (`C155_twice_violated`)."
  },
  {
   "property": "C156",
   "status": "partial",
   "theorems": [
    "DC.Data.C156_partial",
    "DC.Data.C156_two_partial",
    "DC.Data.C156_single_violated",
    "DC.Data.C156_best_violated",
    "DC.Data.C156_dominated_violated"
   ],
   "note": "Disagreements of the code with the statement, each proved on a witness: Whenever one object is at least as good as all the others in every cost, no frontier is given: a ValueError is raised. With three costs, an object may be below a frontier, even a Pareto point: here the object of costs 0 and 0 is the best one for the two first costs, and the frontier goes from (0, 0) to (2, 10); the second object, which nothing dominates, has costs 2 and 1. With three costs, a dominated object may be below a frontier although no object is the best one for its two costs: the last one, of costs 10 and 1, is below the frontier from (0, -1) to (10, 9). Proved part: For costs of any number of dimensions, in no pair of which one object is the best one for both, there is one frontier for each pair of different dimensions; it goes from the least to the greatest cost in the first one, and no Pareto point is below it. Missing for the full property: dominated objects (all objects, for two costs, in `C156_two_partial`; `C156_dominated_violated`), and the objects which are the best ones for both costs (`C156_single_violated`, `C156_best_violated`). With two costs, when no object is the best one for both, there are two frontiers and no object at all is below one of them. Missing: an object which is the best one for both costs, and other numbers of costs (`C156_single_violated`, `C156_best_violated`, `C156_dominated_violated`)."
  },
  {
   "property": "C157",
   "status": "partial",
   "theorems": [
    "DC.Fil.C157_copy",
    "DC.Fil.C157_binary",
    "DC.Fil.C157_text_partial",
    "DC.Fil.C157_missing",
    "DC.Fil.C157_text_violated",
    "DC.Fil.C157_stream_partial",
    "DC.Fil.C157_kind_violated",
    "DC.Fil.C157_position_violated",
    "DC.Fil.C157_eq"
   ],
   "note": "Disagreements of the code with the statement, each proved on a witness: A text with Windows ends of lines is changed when it is read. Whatever the class on which from_stream is called, and whatever the stream, the file it gives is a StringFile without name. A stream which was read before is read as empty: the content of the file is lost. Proved part: A text file read from the disk has the class asked for, the path as name, and the text of the file when this text has no carriage return; otherwise it has another text. Missing: texts with carriage returns (`C157_text_violated`). A text received in a stream which is at its beginning is read as it is. Missing: streams which are not at their beginning (`C157_position_violated`)."
  },
  {
   "property": "C158",
   "status": "partial",
   "theorems": [
    "DC.Fil.C158_partial",
    "DC.Fil.C158_violated",
    "DC.Fil.C158_failed",
    "DC.Fil.C158_file",
    "DC.Fil.C158_emptied_violated"
   ],
   "note": "Disagreements of the code with the statement, each proved on a witness: When the stream held a longer text, the end of this text stays after the script. When the script cannot be written, the former file is emptied. Proved part: The script of a workflow, or of a run, written in a stream is exactly what the stream then holds, whatever the position of the stream, provided the stream did not hold a longer text. Missing for the full property: `C158_violated`."
  },
  {
   "property": "C159",
   "status": "partial",
   "theorems": [
    "DC.Wkf.C159_values",
    "DC.Wkf.C159_missing",
    "DC.Wkf.C159_result_partial",
    "DC.Wkf.C159_locked_violated"
   ],
   "note": "Disagreements of the code with the statement, each proved on a witness: **C159** A state takes a value for a locked input, which a run with the same values does not: the results differ. Proved part: **C159** When the values given one after the other end up being those of a run which succeeds, continuing the state succeeds, and gives the result of the run. Missing: locked inputs, whose values can be changed in a state but not in a run (`C159_locked_violated`), and calls made after blocks were evaluated (`C76_violated`)."
  },
  {
   "property": "C160",
   "status": "proved",
   "theorems": [
    "DC.Data.C160_labels",
    "DC.Data.C160_scaled",
    "DC.Data.C160_empty",
    "DC.Data.C160_each",
    "DC.Data.C160_units",
    "DC.Data.C160_list"
   ],
   "note": ""
  },
  {
   "property": "C161",
   "status": "partial",
   "theorems": [
    "DC.Data.C161_distances",
    "DC.Data.C161_default",
    "DC.Data.C161_empty",
    "DC.Data.C161_singular_partial",
    "DC.Data.C161_singular_violated",
    "DC.Data.C161_points"
   ],
   "note": "Disagreements of the code with the statement, each proved on a witness: If all the attributes are constant, as they are for a dataset of one object, the normalized singular values are all NaN: they do not sum to 1. Proved part: The normalized singular values, as many as the smaller of the numbers of objects and of attributes, are not negative, in decreasing order, and sum to 1, if some attribute is not constant. Missing: datasets whose attributes are all constant (`C161_singular_violated`)."
  },
  {
   "property": "C162",
   "status": "partial",
   "theorems": [
    "DC.Data.C162_samples",
    "DC.Data.C162_matrix",
    "DC.Data.C162_tooltip",
    "DC.Data.C162_attributes",
    "DC.Data.C162_parallel",
    "DC.Data.C162_families_partial",
    "DC.Data.C162_labels_violated"
   ],
   "note": "Disagreements of the code with the statement, each proved on a witness: A label missing: no plot. Proved part: In a dataset without labels, each sample is in one family; with labels, if these are the first natural numbers or -1, as those of clustering algorithms are, too. Missing for other labels: `C93_violated`."
  },
  {
   "property": "C163",
   "status": "partial",
   "theorems": [
    "DC.Docx.C163_table_partial",
    "DC.Docx.C163_table_violated",
    "DC.Docx.C163_table_raises",
    "DC.Docx.C163_call",
    "DC.Docx.C163_calls",
    "DC.Docx.C163_levels",
    "DC.Docx.C163_left_violated",
    "DC.Docx.C163_no_tables",
    "DC.Docx.C163_layout",
    "DC.Docx.C163_alignment",
    "DC.Docx.C163_delete",
    "DC.Docx.C163_picture",
    "DC.Docx.C163_picture_violated"
   ],
   "note": "Disagreements of the code with the statement, each proved on a witness: A text of a longer row is lost, without error: its cell is that of the beginning of the next row. Headings beyond the number of paragraphs are not written by `add_paragraphs`: they are left for the next call. With a section without elements, the picture is not added, without error. Proved part: A table none of whose rows is longer than the first one is written with its texts in their places. Missing for the full property: longer rows (`C163_table_violated`)."
  },
  {
   "property": "C164",
   "status": "proved",
   "theorems": [
    "DC.Reg.C164_cut",
    "DC.Reg.C164_acyclic",
    "DC.Reg.C164_tree"
   ],
   "note": ""
  },
  {
   "property": "C165",
   "status": "partial",
   "theorems": [
    "DC.Reg.C165_sound",
    "DC.Reg.C165_complete_partial",
    "DC.Reg.C165_missed_violated",
    "DC.Reg.C165_ancestors_violated",
    "DC.Reg.C165_raises"
   ],
   "note": "Disagreements of the code with the statement, each proved on a witness: A node at the distance is missed when the search comes first to the one before it by a longer path. The distance does not bound the nodes before the given ones: all of them are in the region. Proved part: In a graph in which all paths between two nodes have the same length, as in a tree, the region holds all nodes the given ones lead to by at most as many edges as the distance. Missing for other graphs: `C165_missed_violated`."
  },
  {
   "property": "C166",
   "status": "partial",
   "theorems": [
    "DC.Num.C166_gradient",
    "DC.Num.C166_cma",
    "DC.Num.C166_both",
    "DC.Num.C166_errors",
    "DC.Num.C166_fixed_violated",
    "DC.Num.C166_twice_violated",
    "DC.Num.C166_start_partial",
    "DC.Num.C166_start_violated"
   ],
   "note": "Disagreements of the code with the statement, each proved on a witness: A fixed value is replaced when a bound has its name. With two bounds for an attribute, its value is within the last one only. The first search finds the point 0, the value 10 of the attribute; the second starts from the point 10, the value 110, out of the bounds. Proved part: The second search starts from the point the first found. Proved when all bounds are 0 and 1: what is missing is that, with other bounds, it starts from the values of the attributes, which are no dimensionless point."
  },
  {
   "property": "C167",
   "status": "partial",
   "theorems": [
    "DC.Data.C167_metric",
    "DC.Data.C167_separates",
    "DC.Data.C167_units_partial",
    "DC.Data.C167_data",
    "DC.Data.C167_units_violated"
   ],
   "note": "Disagreements of the code with the statement, each proved on a witness: With two attributes that are always the same, the distance of two points depends on the units, and different points are at distance 0. Proved part: The distances do not depend on the units of the attributes, when no attribute is a combination of the others. Missing: attributes which are combinations of the others (`C167_units_violated`)."
  },
  {
   "property": "C168",
   "status": "partial",
   "theorems": [
    "DC.C168_numbers",
    "DC.C168_succeeds_partial",
    "DC.C168_succeeds_violated"
   ],
   "note": "Disagreements of the code with the statement, each proved on a witness: An attribute of the dictionary that is none of the object, and holds others, is a KeyError. Proved part: The analysis succeeds on every object whose pointers can be followed, when the values that hold others have a class. Missing: attributes of the dictionary that are none of the object (`C168_succeeds_violated`)."
  },
  {
   "property": "C169",
   "status": "partial",
   "theorems": [
    "DC.Sch.C169_offered",
    "DC.Sch.C169_form_partial",
    "DC.Sch.C169_step",
    "DC.Sch.C169_default_partial",
    "DC.Sch.C169_others_violated",
    "DC.Sch.C169_arguments_violated"
   ],
   "note": "Disagreements of the code with the statement, each proved on a witness: The schema of a method is not independent of the others: when one method that can be called has none, as when one of its arguments is not annotated, no method has any, and there is no default dictionary. The default dictionary of a method, given back as its arguments, gives no argument at all: it is written with the names of the arguments and read with their positions. Proved part: The form of a method has one entry for each of its arguments that is not reserved, in order, which tells its name, its annotation, its documentation, and its default when it has one. Missing: classes of which one method has no schema (`C169_others_violated`). The default dictionary of a method has one entry for each of these arguments, in order, which stands for its default, or for no value; a method that cannot be called is a KeyError. Missing: the entries have the names of the arguments, and are read by position (`C169_arguments_violated`)."
  },
  {
   "property": "C170",
   "status": "partial",
   "theorems": [
    "DC.Types.C170_no_pipe_partial",
    "DC.Types.C170_never_false_violated",
    "DC.Types.C170_exact_partial",
    "DC.Types.C170_raises_violated",
    "DC.Types.C170_value_partial",
    "DC.Types.C170_none",
    "DC.Types.C170_generic_violated"
   ],
   "note": "Disagreements of the code with the statement, each proved on a witness: No workflow is told not to be valid: the answer, if any, is True. A workflow whose variables have classes as types, and with a pipe, is an AttributeError, whether the types agree or not. All values are told to have a type that `isinstance` refuses, as `List[int]`. Proved part: A workflow without pipes is valid. Missing: workflows with pipes (`C170_never_false_violated`, `C170_raises_violated`). A workflow is told to be valid exactly when each of its pipes passes the check: another error than a TypeError is not dropped. Missing: an answer for pipes whose check raises (`C170_never_false_violated`, `C170_raises_violated`). A value is told to have a type exactly when it is an instance of it, for a type that `isinstance` takes. Missing: types that `isinstance` does not take (`C170_generic_violated`)."
  },
  {
   "property": "C171",
   "status": "partial",
   "theorems": [
    "DC.Txt.C171_partial",
    "DC.Txt.C171_dataset_partial",
    "DC.Txt.C171_unprinted",
    "DC.Txt.C171_bool_violated",
    "DC.Txt.C171_complex_violated",
    "DC.Txt.C171_bar_violated",
    "DC.Txt.C171_contents",
    "DC.Txt.C171_contents_violated"
   ],
   "note": "Disagreements of the code with the statement, each proved on a witness: A boolean is shown as a number. An object with an attribute that is a complex number has no Markdown. A bar in a text makes one more cell, a newline one more row. Two headings of which one has a space where the other has a dash have the same link in a table of contents. Proved part: **C171** (part): the Markdown of an object says its name and its class and has a table, which is read as the titles and one row for each attribute, in order, with its name, the name of its type and its value as it should be shown, each cut at 25 characters. Missing for the full property: values that are booleans (`C171_bool_violated`), complex numbers (`C171_complex_violated`), texts with bars or newlines (`C171_bar_violated`). The Markdown of a dataset of at most six elements, or of twelve, says its name, how many elements of which classes it holds, and has a table, which is read as the common attributes and one row of numbers for each element. Missing for the full property: other numbers of elements, for which rows are repeated or left out (`C58_duplicated_violated`, `C58_beyond_partial`)."
  },
  {
   "property": "C172",
   "status": "partial",
   "theorems": [
    "DC.Types.C172_partial",
    "DC.Types.C172_builtin_violated",
    "DC.Types.C172_tuple_violated",
    "DC.Types.C172_variadic_violated",
    "DC.Types.C172_union_violated",
    "DC.Types.C172_dict_violated",
    "DC.Types.C172_names",
    "DC.Types.C172_dict_one",
    "DC.Types.C172_old_builtins"
   ],
   "note": "Disagreements of the code with the statement, each proved on a witness: No list of a builtin type can be read back. A pair of classes of the same type is read as a tuple of any length. A tuple of any length cannot be read back. A list of a union cannot be read back, nor can the union. A dictionary of lists cannot be read back. Proved part: **C172** (part): a builtin, `Type`, a class, `Any`, a list, a tuple of one type, a dictionary or an instance of classes, and any depth of lists, tuples of one type and iterators of these, is written as a string which is read back as this type. Missing for the full property: builtins as arguments (`C172_builtin_violated`), tuples of several types (`C172_tuple_violated`, `C172_variadic_violated`), unions and dictionaries of generic types (`C172_union_violated`, `C172_dict_violated`)."
  },
  {
   "property": "C173",
   "status": "partial",
   "theorems": [
    "DC.Wkf.C173_partial",
    "DC.Wkf.C173_sub_violated",
    "DC.Wkf.C173_free_violated",
    "DC.Wkf.C173_unknown_violated"
   ],
   "note": "Disagreements of the code with the statement, each proved on a witness: **C173** is violated: no input of a workflow used as a block ever has the description of the parameter it fills: it has none, or that of a failure. **C173** is violated: when one input of a workflow run for each element of a list is a free variable, none of the inputs of the block has a description: the documentation of all of them has failed. **C173** is violated: one documented name which is not that of an annotated parameter, and the documentation of every input of the block has failed. Proved part: **C173** (part): the description of an input in the schema of a workflow is what the documentation of its block says of the parameter it fills, for the blocks which call a class or a method with a well written docstring, for blocks without documentation, and for those which run a workflow of such blocks for each element of a list, to any depth. Missing for the full property: workflows run once as a block (`C173_sub_violated`), workflows with free variables (`C173_free_violated`), docstrings which cannot be read (`C173_unknown_violated`)."
  },
  {
   "property": "C174",
   "status": "proved",
   "theorems": [
    "DC.Wkf.C174_part",
    "DC.Wkf.C174_inputs",
    "DC.Wkf.C174_extra"
   ],
   "note": ""
  },
  {
   "property": "C175",
   "status": "proved",
   "theorems": [
    "DC.Wkf.C175_order",
    "DC.Wkf.C175_given"
   ],
   "note": ""
  },
  {
   "property": "C176",
   "status": "proved",
   "theorems": [
    "DC.Wkf.C176_lock",
    "DC.Wkf.C176_default"
   ],
   "note": ""
  },
  {
   "property": "C177",
   "status": "proved",
   "theorems": [
    "DC.C177_concat",
    "DC.C177_objects",
    "DC.C177_filters",
    "DC.C177_chain",
    "DC.C177_opposite"
   ],
   "note": ""
  },
  {
   "property": "C178",
   "status": "proved",
   "theorems": [
    "DC.Data.C178_front",
    "DC.Data.C178_order",
    "DC.Data.C178_again",
    "DC.Data.C178_more",
    "DC.Data.C178_units"
   ],
   "note": ""
  },
  {
   "property": "C179",
   "status": "proved",
   "theorems": [
    "DC.C179_save",
    "DC.C179_rounds",
    "DC.C179_copy"
   ],
   "note": ""
  },
  {
   "property": "C180",
   "status": "partial",
   "theorems": [
    "DC.Feat.C180_exact",
    "DC.Feat.C180_vector_partial",
    "DC.Feat.C180_place",
    "DC.Feat.C180_case_violated",
    "DC.Feat.C180_missing_violated",
    "DC.Feat.C180_order_violated"
   ],
   "note": "Disagreements of the code with the statement, each proved on a witness: A feature with a capital letter is read under another name: the vector of a gas holds the time twice and the temperature not at all. A feature with a capital letter on an object which has nothing under the small letter raises AttributeError, though the feature has a value. Two runs of Python may give the features, hence the vectors, of the same class in different orders. Proved part: When the names of the features have no capital letters, the vector of an object is the list of the values of its features, in the order of the features, and there is a vector exactly when each feature has a value. Missing: names with capital letters (`C180_case_violated`, `C180_missing_violated`)."
  },
  {
   "property": "C181",
   "status": "partial",
   "theorems": [
    "DC.FPr.C181_print",
    "DC.FPr.C181_list_partial",
    "DC.FPr.C181_equal",
    "DC.FPr.C181_width",
    "DC.FPr.C181_aligned",
    "DC.FPr.C181_truncated_violated",
    "DC.FPr.C181_empty_violated",
    "DC.FPr.C181_alias_violated"
   ],
   "note": "Disagreements of the code with the statement, each proved on a witness: The filters after the fifteenth are not printed, and nothing tells it on their lines: two lists are printed alike, one of which keeps an object which the other does not. A list without filters can filter objects and cannot be printed. Two writings of the same comparison are printed alike and accept the same objects, and are not equal. Proved part: Two lists of at most fifteen filters printed alike, the names of which hold no line end, keep the same objects of any list. Missing: longer lists (`C181_truncated_violated`) and names with line ends."
  },
  {
   "property": "C182",
   "status": "partial",
   "theorems": [
    "DC.Data.C182_split",
    "DC.Data.C182_add",
    "DC.Data.C182_reverse",
    "DC.Data.C182_again_partial",
    "DC.Data.C182_again_violated",
    "DC.Data.C182_mask",
    "DC.Data.C182_masks_partial"
   ],
   "note": "Disagreements of the code with the statement, each proved on a witness: Once no object is left, selecting again gives `[]`, not a dataset: the two ways of leaving out the objects then differ. Proved part: Leaving out `a` objects and then `b` more is leaving out `a + b`, as long as some are left by the first step. Missing: a first step which leaves nothing (`C182_again_violated`). Selecting by `p` and then, among what is left, by `q` is selecting by `p` and `q` at once, as long as `p` leaves something. Missing: a first filter which leaves nothing."
  },
  {
   "property": "C183",
   "status": "partial",
   "theorems": [
    "DC.C183_read_steps",
    "DC.C183_read_steps_violated",
    "DC.C183_write_twice",
    "DC.C183_write_back_partial",
    "DC.C183_write_back_violated",
    "DC.C183_write_order_partial",
    "DC.C183_write_order_violated"
   ],
   "note": "Disagreements of the code with the statement, each proved on a witness: With references the law is lost: they are understood from the root of what is read. In a dictionary with integer keys, writing back what was read adds an entry: `#/1` is read at the key `1` and written at the key `'1'`. Two new entries come in the order of their writing. Proved part: Writing at a path what is read there changes nothing, if no dictionary has integer keys and there are no tuples. Missing: integer keys, for which the code does not satisfy the property; tuples cannot be written in. Writing at two existing places on different branches gives the same in both orders, if no dictionary has integer keys. Missing: paths that do not exist yet, for which the order of the new keys differs; integer keys; indices with a sign."
  },
  {
   "property": "C184",
   "status": "proved",
   "theorems": [
    "DC.Data.C184_order",
    "DC.Data.C184_descending",
    "DC.Data.C184_again",
    "DC.Data.C184_ties"
   ],
   "note": ""
  },
  {
   "property": "C185",
   "status": "proved",
   "theorems": [
    "DC.C185_save",
    "DC.C185_load",
    "DC.C185_equal"
   ],
   "note": ""
  },
  {
   "property": "C186",
   "status": "proved",
   "theorems": [
    "DC.Wkf.C186_unfold",
    "DC.Wkf.C186_fold"
   ],
   "note": ""
  },
  {
   "property": "C187",
   "status": "proved",
   "theorems": [
    "DC.Wkf.C187_cut",
    "DC.Wkf.C187_replace"
   ],
   "note": ""
  },
  {
   "property": "C188",
   "status": "proved",
   "theorems": [
    "DC.Wkf.C188_renamed"
   ],
   "note": ""
  },
  {
   "property": "C189",
   "status": "proved",
   "theorems": [
    "DC.Wkf.C189_runs",
    "DC.Wkf.C189_parts",
    "DC.Wkf.C189_fusion",
    "DC.Wkf.C189_chain"
   ],
   "note": ""
  },
  {
   "property": "C190",
   "status": "partial",
   "theorems": [
    "DC.Types.C190_exact_partial",
    "DC.Types.C190_partial",
    "DC.Types.C190_bool_violated",
    "DC.Types.C190_any_violated",
    "DC.Types.C190_tuple_violated",
    "DC.Types.C190_order_violated"
   ],
   "note": "Disagreements of the code with the statement, each proved on a witness: With the classes of Python, bool matches int, and int matches float, but bool does not match float. Where Any is a class, a list type matches Any, which matches object, but it does not match object. A pair matches a tuple of one, which matches any pair with the same first type. Union[None, List[T]] equals, hence matches, Optional[List[T]], which matches List[T]; but it does not match List[T]. Proved part: On types made of classes, Any, lists, dictionaries and tuples, with facing tuples of the same length, typematch tells exactly whether the second type is wider. Missing for the full property: see `C190_partial`. If such a type matches another one, which matches a third one, then the first matches the third. Missing for the full property: a subclass of int is not one of float, as bool (`C190_bool_violated`); from Python 3.11 on, Any between two types (`C190_any_violated`); tuples of different lengths (`C190_tuple_violated`); unions (`C190_order_violated`)."
  },
  {
   "property": "C191",
   "status": "partial",
   "theorems": [
    "DC.C191_partial",
    "DC.C191_object_violated"
   ],
   "note": "Disagreements of the code with the statement, each proved on a witness: If two objects of a class, with a name, differ only by the value of one attribute, and do not have equal data, then their diff has the entries of the diff of the two values of this attribute, but in the wrong order, and one more entry, which tells that the first object has no name. Proved part: If two values differ only by what is at one place, through dictionaries, lists and tuples, their diff is the one of what is at this place, with its path. Missing for the full property: objects (`C191_object_violated`)."
  },
  {
   "property": "C192",
   "status": "partial",
   "theorems": [
    "DC.Data.C192_reorder_partial",
    "DC.Data.C192_sort_partial",
    "DC.Data.C192_order_violated",
    "DC.Data.C192_sum_partial"
   ],
   "note": "Disagreements of the code with the statement, each proved on a witness: **C192** is violated by the code: the means follow the features of the first object. Proved part: Reordering the objects of a dataset changes neither its means nor its variances. Missing: datasets of several classes, whose common attributes may come in an other order (`C192_order_violated`). Sorting a dataset changes neither its means nor its variances, when its common attributes come in the same order after the sort. Missing: common attributes in another order after the sort (`C192_order_violated`). In the sum of two datasets which are not empty and have the same common attributes, each mean is that of the two means, counted with the numbers of objects, and each variance comes from the two variances and the two means. Missing: datasets having other common attributes, whose sum may not be readable (`C47_sum_violated`)."
  },
  {
   "property": "C193",
   "status": "partial",
   "theorems": [
    "DC.C193_partial",
    "DC.C193_missing_violated",
    "DC.C193_longer_violated",
    "DC.C193_types_violated",
    "DC.C193_objects_violated"
   ],
   "note": "Disagreements of the code with the statement, each proved on a witness: **C193** is violated by the code: of two dictionaries of one length, the diff tells the key of the first only, either way. **C193** is violated by the code: when the second dictionary has more keys, its values are told first, either way. **C193** is violated by the code: a boolean is an integer, and an integer is no boolean. **C193** is violated by the code: of two objects having the same name, the diff tells the name of the first missing, either way. Proved part: Exchanging two values exchanges the values told by their diff, when it tells nothing missing either way. Missing: objects, booleans and measures, and dictionaries having other keys (`C193_missing_violated`, `C193_longer_violated`, `C193_types_violated`, `C193_objects_violated`)."
  },
  {
   "property": "C194",
   "status": "partial",
   "theorems": [
    "DC.Cat.C194_numbers",
    "DC.Cat.C194_archive",
    "DC.Cat.C194_unpacker",
    "DC.Cat.C194_fixed",
    "DC.Cat.C194_export",
    "DC.Cat.C194_untouched",
    "DC.Cat.C194_forEach_partial",
    "DC.Cat.C194_forEach_violated",
    "DC.Cat.C194_forEach_names",
    "DC.Cat.C194_names_partial",
    "DC.Cat.C194_names_violated"
   ],
   "note": "Disagreements of the code with the statement, each proved on a witness: **The code violates the property**: a `ForEach` whose index counts from the end is made without error, and none of its inputs is the one iterated over. **The code violates the property**: the block of a method which has a parameter `Model` has two inputs of this name. Proved part: The `ForEach` of a workflow block over one of its inputs has one input per input of the block. The one iterated over is free, the others keep their type, their value and their lock. Missing: negative indices (`C194_forEach_violated`). The inputs of a new block which is not made of a workflow have different names, if no parameter of a method is called `Model`. Missing: such parameters (`C194_names_violated`)."
  },
  {
   "property": "C195",
   "status": "proved",
   "theorems": [
    "DC.Cat.C195_base",
    "DC.Cat.C195_method",
    "DC.Cat.C195_attribute",
    "DC.Cat.C195_filter",
    "DC.Cat.C195_plots",
    "DC.Cat.C195_arguments"
   ],
   "note": ""
  },
  {
   "property": "C196",
   "status": "proved",
   "theorems": [
    "DC.Data.C196_manhattan",
    "DC.Data.C196_euclidian",
    "DC.Data.C196_minkowski",
    "DC.Data.C196_compare",
    "DC.Data.C196_orders",
    "DC.Data.C196_covariance_scale",
    "DC.Data.C196_covariance_sum",
    "DC.Data.C196_covariance_reorder"
   ],
   "note": ""
  },
  {
   "property": "C197",
   "status": "proved",
   "theorems": [
    "DC.C197_equal",
    "DC.C197_hidden",
    "DC.C197_hash",
    "DC.C197_hash_name",
    "DC.C197_sequence"
   ],
   "note": ""
  },
  {
   "property": "C198",
   "status": "partial",
   "theorems": [
    "DC.C198_total",
    "DC.C198_again",
    "DC.C198_partial",
    "DC.C198_violated",
    "DC.C198_shallow"
   ],
   "note": "Disagreements of the code with the statement, each proved on a witness: C198 is violated by the code: two objects that differ by an attribute which is not an argument of their constructor are copied apart; their copies have lost it and are equal, so that the copy of the copy gives the name of the first one to both. Proved part: C198, what holds of a second copy: it is the first one, when no two different objects inside the first one are equal. Missing: copies in which different objects are equal (`C198_violated`)."
  },
  {
   "property": "C199",
   "status": "partial",
   "theorems": [
    "DC.Wkf.C199_move",
    "DC.Wkf.C199_refused_violated",
    "DC.Wkf.C199_refused_partial",
    "DC.Wkf.C199_rename",
    "DC.Wkf.C199_document",
    "DC.Wkf.C199_free",
    "DC.Wkf.C199_insert",
    "DC.Wkf.C199_undo"
   ],
   "note": "Disagreements of the code with the statement, each proved on a witness: C199 is violated by the code: when an index given to `change_inputs_step` is out of range it raises, but the inputs before it have been moved. Proved part: C199, what holds of refused editions: renaming a step, writing its documentation, removing its display, reordering the steps or the inputs of one, and moving one input change nothing when they raise. Missing: moving several inputs (`C199_refused_violated`) and removing an input from its step (`C33_spare_violated`)."
  },
  {
   "property": "C200",
   "status": "partial",
   "theorems": [
    "DC.Demo.C200_partial",
    "DC.Demo.C200_violated",
    "DC.Demo.C200_dataset"
   ],
   "note": "Disagreements of the code with the statement, each proved on a witness: C200. When no cluster, or a negative number of them, is asked for, one cluster with all the points is given. Proved part: C200. Whatever the generator draws, the sizes of the clusters are as many as asked, none is negative, they add up to the number of points, and each but the last lies between the half and the double of an even share of the points left. Missing: no cluster can be asked for (`C200_violated`)."
  },
  {
   "property": "C201",
   "status": "partial",
   "theorems": [
    "DC.Demo.C201_partial",
    "DC.Demo.C201_tail",
    "DC.Demo.C201_violated",
    "DC.Demo.C201_duplicates_violated",
    "DC.Demo.C201_power",
    "DC.Demo.C201_generate",
    "DC.Demo.C201_progress"
   ],
   "note": "Disagreements of the code with the statement, each proved on a witness: C201. The last line of a file which does not end by an end of line is lost: a file of one car has none. C201. The removal of duplicates raises an AttributeError as soon as there is a line to read. Proved part: C201. The cars of a file whose lines end by an end of line are those of its lines after the first, in order, up to the given number of them: they are given exactly when each of these lines is a car. Missing: the last line is lost when no end of line ends it (`C201_violated`), and the removal of duplicates raises (`C201_duplicates_violated`)."
  },
  {
   "property": "C202",
   "status": "proved",
   "theorems": [
    "DC.Beams.C202_generate",
    "DC.Beams.C202_refused",
    "DC.Beams.C202_reference",
    "DC.Beams.C202_places"
   ],
   "note": ""
  },
  {
   "property": "C203",
   "status": "proved",
   "theorems": [
    "DC.Data.C203_parts",
    "DC.Data.C203_joins",
    "DC.Data.C203_best",
    "DC.Data.C203_single"
   ],
   "note": ""
  },
  {
   "property": "C204",
   "status": "partial",
   "theorems": [
    "DC.C204_pointers",
    "DC.C204_links",
    "DC.C204_nodes",
    "DC.C204_document",
    "DC.C204_shape_violated",
    "DC.C204_leaves_violated"
   ],
   "note": "Disagreements of the code with the statement, each proved on a witness: C204 is violated for the shape of the edges: those of a list are pairs, those of a dict are triples, so that no loop over the triples can read the edges of a document with both. C204 is violated for the values which are neither containers nor references: a number is a node in a list, and not in a dict."
  },
  {
   "property": "C205",
   "status": "proved",
   "theorems": [
    "DC.Wkf.C205_output",
    "DC.Wkf.C205_given"
   ],
   "note": ""
  },
  {
   "property": "C206",
   "status": "proved",
   "theorems": [
    "DC.Wkf.C206_missing",
    "DC.Wkf.C206_readable",
    "DC.Wkf.C206_imposed",
    "DC.Wkf.C206_runs"
   ],
   "note": ""
  },
  {
   "property": "C207",
   "status": "partial",
   "theorems": [
    "DC.C207_told_partial",
    "DC.C207_told_violated",
    "DC.C207_names",
    "DC.C207_read_partial",
    "DC.C207_read_violated",
    "DC.C207_unnamed"
   ],
   "note": "Disagreements of the code with the statement, each proved on a witness: C207 is violated by the code: a measure is a number which can be written, and no type is told for it; nor for a class, nor for a file. C207 is violated by the code: no number, string nor dict is read with the type told for it. Proved part: C207, what holds: a type is told exactly for the values whose sequences hold, at any depth, no measure, class, file nor value of an unknown class. Missing: these values, see the `_violated` theorem. C207, what holds: `None`, objects, and their sequences at any depth, are read back with the type told for them, sequences becoming lists; the value read is equal to the original one. Missing: numbers, strings and dicts, see the `_violated` theorem."
  },
  {
   "property": "C208",
   "status": "proved",
   "theorems": [
    "DC.Wkf.C208_goes_on",
    "DC.Wkf.C208_runs",
    "DC.Wkf.C208_apart"
   ],
   "note": ""
  },
  {
   "property": "C209",
   "status": "proved",
   "theorems": [
    "DC.Wkf.C209_completes",
    "DC.Wkf.C209_give",
    "DC.Wkf.C209_rest",
    "DC.Wkf.C209_run",
    "DC.Wkf.C209_ends"
   ],
   "note": ""
  },
  {
   "property": "C210",
   "status": "partial",
   "theorems": [
    "DC.Imp.C210_history",
    "DC.Imp.C210_named",
    "DC.Imp.C210_stays",
    "DC.Imp.C210_again",
    "DC.Imp.C210_text_partial",
    "DC.Imp.C210_text_violated",
    "DC.Imp.C210_limit_partial",
    "DC.Imp.C210_limit_violated"
   ],
   "note": "Disagreements of the code with the statement, each proved on a witness: A text which names a module whose import fails in an other way cannot be read. Finding a class, whatever its name, sets the recursion limit to 3000: a user who had set a greater one for deep objects loses it. Proved part: A text is read as itself if it has no dot, starts with a dot, or stands for nothing because the module is not found, has no such member, or its name is ill-formed; otherwise it is read as what it stands for. Missing: texts naming a module whose import raises any other exception (`C210_text_violated`). Finding a class leaves the recursion limit as it is if it is 3000. Missing: the other limits (`C210_limit_violated`)."
  },
  {
   "property": "C211",
   "status": "partial",
   "theorems": [
    "DC.Cat.C211_names",
    "DC.Cat.C211_now",
    "DC.Cat.C211_again_violated"
   ],
   "note": "Disagreements of the code with the statement, each proved on a witness: C211, violated: the names are lost when the archive read is written and read again."
  },
  {
   "property": "C212",
   "status": "partial",
   "theorems": [
    "DC.Txt.C212_partial",
    "DC.Txt.C212_unfinished_violated",
    "DC.Txt.C212_state_violated",
    "DC.Txt.C212_plain_violated"
   ],
   "note": "Disagreements of the code with the statement, each proved on a witness: The execution information of a workflow of which one block raised an error, and was not evaluated again, has no Markdown: KeyError. A state of a workflow has no Markdown, whatever was evaluated: TypeError. A run whose output is a number, a string, a dictionary or None has no Markdown: AttributeError. Proved part: **C212** (part): when every evaluated block finished, the Markdown of a run whose output is shown by `out` says the name of the run, that of the workflow and `out`, and has a table which is read as the titles and one line for each evaluated block, each of them once, with the memory before and after its last evaluation and their difference. When no block is evaluated twice, the lines are in the order of the evaluations. Missing for the full property: outputs which are no objects and no sequences (`C212_plain_violated`), blocks which did not finish (`C212_unfinished_violated`), states (`C212_state_violated`), and names with bars or newlines."
  }
 ]
}