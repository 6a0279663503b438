{"claims": [
{"property": "C01", "status": "proved", "theorems": ["Gopmml.Props.C01_ordering_float", "Gopmml.Props.C01_ordering_int", "Gopmml.Props.C01_ordering_other"], "note": ""},
{"property": "C02", "status": "proved", "theorems": ["Gopmml.Props.C02_absent", "Gopmml.Props.C02_present", "Gopmml.Props.C02_isNotMissing_absent_not_false", "Gopmml.Props.C02_isMissing_numeric_needs_constant"], "note": "PMML's isNotMissing rule is violated; negation proved."},
{"property": "C03", "status": "proved", "theorems": ["Gopmml.Props.C03_kleene", "Gopmml.Props.C03_nested_constants_violate"], "note": "nested True/False violate the PMML meaning; negation proved."},
{"property": "C04", "status": "proved", "theorems": ["Gopmml.Props.C04_operand_order", "Gopmml.Props.C04_surrogate_depends_on_order"], "note": ""},
{"property": "C05", "status": "proved", "theorems": ["Gopmml.Props.C05_predicate_frame", "Gopmml.Props.C05_tree_frame", "Gopmml.Props.C05_tree_frame_nil"], "note": "Rows are non-nil maps, or any rows when there are no derived fields."},
{"property": "C06", "status": "proved", "theorems": ["Gopmml.Props.C06_split_float", "Gopmml.Props.C06_split_int"], "note": ""},
{"property": "C07", "status": "proved", "theorems": ["Gopmml.Props.C07_equal", "Gopmml.Props.C07_notEqual", "Gopmml.Props.C07_plain_int_never_equal"], "note": ""},
{"property": "C08", "status": "proved", "theorems": ["Gopmml.Props.C08_construction"], "note": ""},
{"property": "C09", "status": "proved", "theorems": ["Gopmml.Props.C09_descent_never_panics", "Gopmml.Props.C09_nil_predicate_panics"], "note": "Needs a predicate on every node; without one the code panics (negation proved)."},
{"property": "C10", "status": "proved", "theorems": ["Gopmml.Props.C10_validate"], "note": ""},
{"property": "C100", "status": "proved", "theorems": ["Gopmml.Props.C100_specialised", "Gopmml.Props.C100_between", "Gopmml.Props.C100_path", "Gopmml.Props.C100_size"], "note": "Nothing may be assumed about fields the document fills in, derives or chains."},
{"property": "C101", "status": "proved", "theorems": ["Gopmml.Props.C101_merged"], "note": "Stated on documents; the merged tree is a tree document again."},
{"property": "C102", "status": "proved", "theorems": ["Gopmml.Props.C102_bounds", "Gopmml.Props.C102_within", "Gopmml.Props.C102_robust", "Gopmml.Props.C102_predicts", "Gopmml.Props.C102_exact"], "note": "Answers only: that evaluation does not fail is the subject of C59 and C94. exp and atan enter by their monotonicity, as in C65."},
{"property": "C103", "status": "proved", "theorems": ["Gopmml.Props.C103_reads_exactly", "Gopmml.Props.C103_unambiguous", "Gopmml.Props.C103_rest_unread", "Gopmml.Props.C103_prolog", "Gopmml.Props.C103_run", "Gopmml.Props.C103_malformed", "Gopmml.Props.C103_any_text", "Gopmml.Props.C103_written", "Gopmml.Props.C103_every_document"], "note": "Go's encoding/xml is not in the repository; it is modelled from its documented behaviour with the default settings main/perftest.go uses. Texts are sequences of characters (bytes: C110); the tables of letters beyond ASCII are a parameter."},
{"property": "C104", "status": "proved", "theorems": ["Gopmml.Props.C104_link", "Gopmml.Props.C104_regression", "Gopmml.Props.C104_linear", "Gopmml.Props.C104_softmax", "Gopmml.Props.C104_overflow", "Gopmml.Props.C104_underflow", "Gopmml.Props.C104_ordinary", "Gopmml.Props.C104_simplemax", "Gopmml.Props.C104_binary", "Gopmml.Props.C104_cancelled"], "note": "Findings: regression.go computes softmax without subtracting the largest score, so float64 overflow turns the favourite into NaN; simplemax scores that cancel are reported as infinite. math.Exp and math.Atan enter through GoMath only."},
{"property": "C105", "status": "proved", "theorems": ["Gopmml.Props.C105_files", "Gopmml.Props.C105_last", "Gopmml.Props.C105_blocked", "Gopmml.Props.C105_finishes", "Gopmml.Props.C105_answers", "Gopmml.Props.C105_order", "Gopmml.Props.C105_crashes", "Gopmml.Props.C105_nothing_else"], "note": "Finding: of two files with the same name in different directories only one is run, silently. filepath.Walk, path.Ext, path.Base and strings.TrimSuffix are modelled from their documentation; profiling and timing are left out, and the rows are given."},
{"property": "C106", "status": "proved", "theorems": ["Gopmml.Props.C106_table", "Gopmml.Props.C106_fails", "Gopmml.Props.C106_edits", "Gopmml.Props.C106_unread", "Gopmml.Props.C106_hierarchies", "Gopmml.Props.C106_roundtrip", "Gopmml.Props.C106_program", "Gopmml.Props.C106_answers", "Gopmml.Props.C106_every_document"], "note": "The table was generated from the struct tags and the switches of UnmarshalXML methods in the sources, independently of the decoders. Findings: standardDeviation of NumericInfo is declared as a child element, so as an attribute (where PMML has it) it is ignored; twelve of eighteen kinds of models have no fields besides extensions; an Extension inside an InlineTable, a Segment or directly in PMML makes the whole document unreadable."},
{"property": "C107", "status": "proved", "theorems": ["Gopmml.Props.C107_rows", "Gopmml.Props.C107_turns", "Gopmml.Props.C107_finishes", "Gopmml.Props.C107_answers", "Gopmml.Props.C107_checked", "Gopmml.Props.C107_check", "Gopmml.Props.C107_regressions", "Gopmml.Props.C107_used", "Gopmml.Props.C107_bounds"], "note": "The program is `perfMain` with `iterations` rows; the theorems hold for every number of rows. The numbers are an arbitrary sequence, not the output of Go's generator."},
{"property": "C108", "status": "proved", "theorems": ["Gopmml.Props.C108_evaluation", "Gopmml.Props.C108_row_keeps", "Gopmml.Props.C108_never", "Gopmml.Props.C108_no_predicate", "Gopmml.Props.C108_no_missing", "Gopmml.Props.C108_faultless", "Gopmml.Props.C108_construction", "Gopmml.Props.C108_verify"], "note": "The library calls a nil function where a node of a tree has no predicate; this panic is one of the reasons listed."},
{"property": "C109", "status": "proved", "theorems": ["Gopmml.Props.C109_decoded", "Gopmml.Props.C109_written", "Gopmml.Props.C109_files", "Gopmml.Props.C109_one", "Gopmml.Props.C109_canonical", "Gopmml.Props.C109_same", "Gopmml.Props.C109_numbers", "Gopmml.Props.C109_float64"], "note": "A document that is to be written must be tidy: columns of inline tables with plain names other than those of verbatim elements, constants without markup inside."},
{"property": "C11", "status": "proved", "theorems": ["Gopmml.Props.C11_recompile", "Gopmml.Props.C11_predictions"], "note": ""},
{"property": "C110", "status": "proved", "theorems": ["Gopmml.Props.C110_utf8", "Gopmml.Props.C110_wellFormed", "Gopmml.Props.C110_reads", "Gopmml.Props.C110_foreign", "Gopmml.Props.C110_wrong_bytes", "Gopmml.Props.C110_plain", "Gopmml.Props.C110_start", "Gopmml.Props.C110_wide", "Gopmml.Props.C110_mark", "Gopmml.Props.C110_run", "Gopmml.Props.C110_normal"], "note": "unicode/utf8 and encoding/xml are modelled from their documented behaviour; a byte that belongs to no character is taken for U+FFFE, which is treated alike everywhere (the theorems ask that the tables of letters do not contain it). Finding: a comment may contain bytes in any encoding."},
{"property": "C111", "status": "proved", "theorems": ["Gopmml.Props.C111_redeclared", "Gopmml.Props.C111_order", "Gopmml.Props.C111_unused", "Gopmml.Props.C111_pruned"], "note": "The order of derived fields is not exchanged here (C63, C97), and the declared values of a target keep their order."},
{"property": "C112", "status": "proved", "theorems": ["Gopmml.Props.C112_fields", "Gopmml.Props.C112_any_order", "Gopmml.Props.C112_documents", "Gopmml.Props.C112_histories"], "note": "A derived field written twice in the same words is excluded. When both fail, the errors and the rows may differ."},
{"property": "C113", "status": "proved", "theorems": ["Gopmml.Props.C113_content", "Gopmml.Props.C113_file", "Gopmml.Props.C113_model", "Gopmml.Props.C113_cells", "Gopmml.Props.C113_sections", "Gopmml.Props.C113_rearranged"], "note": "The content is that of the elements the evaluators look at; the others only decide whether the document can be read. encoding/xml's reflection is modelled as described in DESIGN.md."},
{"property": "C114", "status": "proved", "theorems": ["Gopmml.Props.C114_documents", "Gopmml.Props.C114_files", "Gopmml.Props.C114_run", "Gopmml.Props.C114_together"], "note": "When neither document can be decoded the errors may differ."},
{"property": "C115", "status": "proved", "theorems": ["Gopmml.Props.C115_first", "Gopmml.Props.C115_later", "Gopmml.Props.C115_says", "Gopmml.Props.C115_edits", "Gopmml.Props.C115_hierarchies", "Gopmml.Props.C115_program"], "note": "Errors are those of the model: the text that does not parse, the element not consumed, or the unexamined element; the wording of the messages of encoding/xml is not modelled."},
{"property": "C116", "status": "proved", "theorems": ["Gopmml.Props.C116_documents", "Gopmml.Props.C116_bare", "Gopmml.Props.C116_same", "Gopmml.Props.C116_refused", "Gopmml.Props.C116_files", "Gopmml.Props.C116_run", "Gopmml.Props.C116_together"], "note": "One direction only: an element a strict decoder does not know is refused, so what is left may be readable when the whole is not. Text is never left out (C62 is about layout)."},
{"property": "C117", "status": "proved", "theorems": ["Gopmml.Props.C117_document", "Gopmml.Props.C117_same", "Gopmml.Props.C117_models", "Gopmml.Props.C117_program", "Gopmml.Props.C117_files", "Gopmml.Props.C117_run", "Gopmml.Props.C117_bare"], "note": "About answers of Evaluate in the program. Verify does read verification records (C53, C54), and the decoded documents differ. PMML wants exponents and segment predicates to matter: the theorem records that here they do not (C38, C45)."},
{"property": "C118", "status": "proved", "theorems": ["Gopmml.Props.C118_verify", "Gopmml.Props.C118_precision"], "note": "PMML wants the precision and the zeroThreshold of a field to be used; the code compares with 1e-5 of the expected value always (C53). zeroThreshold is not part of the model: the code decodes it and never reads it."},
{"property": "C12", "status": "proved", "theorems": ["Gopmml.Props.C12_first_true_child"], "note": ""},
{"property": "C13", "status": "proved", "theorems": ["Gopmml.Props.C13_null_prediction"], "note": ""},
{"property": "C14", "status": "proved", "theorems": ["Gopmml.Props.C14_last_prediction", "Gopmml.Props.C14_rules", "Gopmml.Props.C14_answer_is_a_nodes_own"], "note": ""},
{"property": "C15", "status": "proved", "theorems": ["Gopmml.Props.C15_default_child", "Gopmml.Props.C15_rules"], "note": ""},
{"property": "C16", "status": "proved", "theorems": ["Gopmml.Props.C16_weighted_confidence", "Gopmml.Props.C16_distinct_ids", "Gopmml.Props.C16_absent_ids_drop_children"], "note": "Law-free float statement; negation for equal or absent ids."},
{"property": "C17", "status": "proved", "theorems": ["Gopmml.Props.C17_aggregate_nodes", "Gopmml.Props.C17_false_children_are_counted"], "note": "False children's counts are collected too (PMML violation, proved)."},
{"property": "C18", "status": "proved", "theorems": ["Gopmml.Props.C18_record_counts", "Gopmml.Props.C18_aggregate", "Gopmml.Props.C18_penalty", "Gopmml.Props.C18_evaluate", "Gopmml.Props.C18_weighted_exceeds_one", "Gopmml.Props.C18_nan_occurs"], "note": "exact binary64 model; weightedConfidence is not claimed and does exceed one (witness)"},
{"property": "C19", "status": "proved", "theorems": ["Gopmml.Props.C19_record_counts", "Gopmml.Props.C19_given", "Gopmml.Props.C19_one_hot", "Gopmml.Props.C19_aggregate", "Gopmml.Props.C19_weighted", "Gopmml.Props.C19_evaluate"], "note": "exact arithmetic = the real numbers (Arith ℝ instance)"},
{"property": "C20", "status": "proved", "theorems": ["Gopmml.Props.C20_argmax", "Gopmml.Props.C20_best_is_maximal", "Gopmml.Props.C20_float64"], "note": ""},
{"property": "C21", "status": "proved", "theorems": ["Gopmml.Props.C21_output_keys"], "note": ""},
{"property": "C22", "status": "proved", "theorems": ["Gopmml.Props.C22_regression", "Gopmml.Props.C22_continuous_target_panics"], "note": "Panics for continuous targets without ScoreDistribution (negation proved)."},
{"property": "C23", "status": "proved", "theorems": ["Gopmml.Props.C23_no_invented_labels"], "note": ""},
{"property": "C24", "status": "proved", "theorems": ["Gopmml.Props.C24_strategies_agree", "Gopmml.Props.C24_empty_distribution_differs"], "note": "Side condition: the answering distribution is not empty, or returnNullPrediction; necessity proved."},
{"property": "C25", "status": "proved", "theorems": ["Gopmml.Props.C25_order", "Gopmml.Props.C25_order_document", "Gopmml.Props.C25_exact", "Gopmml.Props.C25_tie_depends_on_order", "Gopmml.Props.C25_regression_depends_on_order"], "note": "exact part for classification trees; regression trees under the two strategies do depend on the order (witness proved)"},
{"property": "C26", "status": "proved", "theorems": ["Gopmml.Props.C26_history"], "note": ""},
{"property": "C27", "status": "proved", "theorems": ["Gopmml.Props.C27_program", "Gopmml.Props.C27_right", "Gopmml.Props.C27_warm", "Gopmml.Props.C27_cold", "Gopmml.Props.C27_progress", "Gopmml.Props.C27_warm_tree", "Gopmml.Props.C27_cold_tree", "Gopmml.Props.C27_store"], "note": "Any number of goroutines and every interleaving, for trees and ensembles of any depth. C27_program ties the access programs to the sequential evaluation functions. Each goroutine has its own input row."},
{"property": "C28", "status": "proved", "theorems": ["Gopmml.Props.C28_tree_not_validated", "Gopmml.Props.C28_tree_not_compiled", "Gopmml.Props.C28_mining_not_validated", "Gopmml.Props.C28_mining_not_compiled", "Gopmml.Props.C28_constructed_ready"], "note": ""},
{"property": "C29", "status": "proved", "theorems": ["Gopmml.Props.C29_step", "Gopmml.Props.C29_first_error", "Gopmml.Props.C29_errors", "Gopmml.Props.C29_frame", "Gopmml.Props.C29_nil_row_panics", "Gopmml.Props.C29_tree", "Gopmml.Props.C29_ensemble"], "note": "HandleInput on any row, and its place in Evaluate; a nil row panics at the first derived field (proved as finding)."},
{"property": "C30", "status": "proved", "theorems": ["Gopmml.Props.C30_arithmetic", "Gopmml.Props.C30_arithmetic_unique"], "note": "Denotation as an inductive relation; a bare field reference returns the raw value whose float64 view is the denotation."},
{"property": "C31", "status": "proved", "theorems": ["Gopmml.Props.C31_if_true", "Gopmml.Props.C31_if_not_true", "Gopmml.Props.C31_if_error", "Gopmml.Props.C31_if_untaken"], "note": ""},
{"property": "C32", "status": "proved", "theorems": ["Gopmml.Props.C32_missing", "Gopmml.Props.C32_absent_field"], "note": ""},
{"property": "C33", "status": "proved", "theorems": ["Gopmml.Props.C33_map_values", "Gopmml.Props.C33_absent_is_nil_text", "Gopmml.Props.C33_column_names_are_fixed"], "note": "Hypothesis: no column pair writes data:output itself. Findings: column names are hard coded, an absent field is looked up as the text <nil>."},
{"property": "C34", "status": "proved", "theorems": ["Gopmml.Props.C34_no_panic", "Gopmml.Props.C34_errors"], "note": "Exact characterisation of when an expression fails."},
{"property": "C35", "status": "proved", "theorems": ["Gopmml.Props.C35_expression_frame"], "note": ""},
{"property": "C36", "status": "proved", "theorems": ["Gopmml.Props.C36_sum"], "note": "Through NewModel and Evaluate, any ensemble, row and map order; segment behaviour described by the relation SegsRun."},
{"property": "C37", "status": "proved", "theorems": ["Gopmml.Props.C37_average", "Gopmml.Props.C37_average_vs_sum", "Gopmml.Props.C37_between"], "note": "Between bound in exact arithmetic (reals). Rescaling happens before the division."},
{"property": "C38", "status": "proved", "theorems": ["Gopmml.Props.C38_selectFirst", "Gopmml.Props.C38_predicates_ignored"], "note": "Segment predicates shown to be ignored by every method."},
{"property": "C39", "status": "proved", "theorems": ["Gopmml.Props.C39_chain", "Gopmml.Props.C39_empty"], "note": ""},
{"property": "C40", "status": "proved", "theorems": ["Gopmml.Props.C40_impute", "Gopmml.Props.C40_row", "Gopmml.Props.C40_nil_row"], "note": "Replacements are stored as strings; a nil row panics."},
{"property": "C41", "status": "proved", "theorems": ["Gopmml.Props.C41_frame", "Gopmml.Props.C41_document", "Gopmml.Props.C41_regression"], "note": "For models in any life-cycle state; also in terms of the document."},
{"property": "C42", "status": "proved", "theorems": ["Gopmml.Props.C42_sum_average", "Gopmml.Props.C42_first_failure", "Gopmml.Props.C42_chain", "Gopmml.Props.C42_preparation", "Gopmml.Props.C38_selectFirst"], "note": "The ensemble's error is that of the failing segment (every model and map order); conversely a failing segment makes the ensemble fail (models whose segments do not depend on map order)."},
{"property": "C43", "status": "proved", "theorems": ["Gopmml.Props.C43_construction"], "note": ""},
{"property": "C44", "status": "proved", "theorems": ["Gopmml.Props.C44_recompile", "Gopmml.Props.C44_copies", "Gopmml.Props.C44_sum_effect", "Gopmml.Props.C44_exact_multiple", "Gopmml.Props.C44_not_harmless"], "note": "The property as stated is false: negation C44_not_harmless; exact effect of n recompilations proved."},
{"property": "C45", "status": "proved", "theorems": ["Gopmml.Props.C45_regression", "Gopmml.Props.C45_counts", "Gopmml.Props.C45_none_fails", "Gopmml.Props.C45_exact", "Gopmml.Props.C45_exponents_ignored"], "note": "Formula for all documents and rows, with the errors; in exact arithmetic the fold is the sum. Findings: method none is rejected, exponents are ignored."},
{"property": "C46", "status": "proved", "theorems": ["Gopmml.Props.C46_firstMissing", "Gopmml.Props.C46_binary", "Gopmml.Props.C46_binary_unsupported", "Gopmml.Props.C46_multiclass", "Gopmml.Props.C45_regression"], "note": "The error names the first absent predictor; the converse (success) is part of the same statements."},
{"property": "C47", "status": "proved", "theorems": ["Gopmml.Props.C47_softmax", "Gopmml.Props.C47_shift", "Gopmml.Props.C47_float"], "note": "Exact arithmetic over the reals for tables reported under distinct names; float64 for any exp with NaN or non-negative values."},
{"property": "C48", "status": "proved", "theorems": ["Gopmml.Props.C48_binary", "Gopmml.Props.C48_complementary", "Gopmml.Props.C48_coefficients_ignored", "Gopmml.Props.C48_not_probabilities"], "note": "Second probability is the rounded 1-p in any arithmetic; sum one over the reals. Findings: coefficients are ignored and the values need not lie in [0,1]."},
{"property": "C49", "status": "proved", "theorems": ["Gopmml.Props.C49_link", "Gopmml.Props.C49_answers", "Gopmml.Props.C49_float"], "note": "Range and strict monotonicity over the reals, also stated for the answers of Evaluate; float64 logistic link NaN or in [0,1]."},
{"property": "C50", "status": "proved", "theorems": ["Gopmml.Props.C50_pure", "Gopmml.Props.C50_no_panic"], "note": "Row and model unchanged, no panic, all documents and rows."},
{"property": "C51", "status": "proved", "theorems": ["Gopmml.Props.C51_fits", "Gopmml.Props.C51_wraps", "Gopmml.Props.C51_range", "Gopmml.Props.C51_others"], "note": "All kinds and all values."},
{"property": "C52", "status": "proved", "theorems": ["Gopmml.Props.C52_float64", "Gopmml.Props.C52_bool", "Gopmml.Props.C52_string", "Gopmml.Props.C52_exact", "Gopmml.Props.C52_monotone", "Gopmml.Props.C52_collision", "Gopmml.Props.C52_float32", "Gopmml.Props.C52_float32_nearest", "Gopmml.Props.C52_float32_text"], "note": "All dynamic values; in float64 integers up to 53 bits are exact and the view is monotone beyond; the float32 view is the nearest float32."},
{"property": "C53", "status": "proved", "theorems": ["Gopmml.Props.C53_none", "Gopmml.Props.C53_verify", "Gopmml.Props.C53_order", "Gopmml.Props.C53_close", "Gopmml.Props.C53_negative", "Gopmml.Props.C53_negative_float", "Gopmml.Props.C53_nan", "Gopmml.Props.C53_negative_rejected"], "note": "Equivalence for all constructed models, tables and map orders; findings on negative expectations and NaN."},
{"property": "C54", "status": "proved", "theorems": ["Gopmml.Props.C54_verify"], "note": "Any sequence of Evaluate and Verify calls."},
{"property": "C55", "status": "proved", "theorems": ["Gopmml.Props.C55_wrong_type", "Gopmml.Props.C55_ints", "Gopmml.Props.C55_floats", "Gopmml.Props.C55_strings", "Gopmml.Props.C55_ints_stable", "Gopmml.Props.C55_floats_stable", "Gopmml.Props.C55_strings_stable", "Gopmml.Props.C55_strings_failure", "Gopmml.Props.C55_alias"], "note": "Word splitting (external package) is a parameter. Stability holds for every history of calls and field assignments without writes through a returned slice; C55_alias shows such writes do change later answers."},
{"property": "C56", "status": "proved", "theorems": ["Gopmml.Props.C56_node", "Gopmml.Props.C56_compound", "Gopmml.Props.C56_simple", "Gopmml.Props.C56_constant", "Gopmml.Props.C56_set", "Gopmml.Props.C56_distribution", "Gopmml.Props.C56_predicate_roundtrip", "Gopmml.Props.C56_roundtrip"], "note": "Exact characterisation (iff) of decoding Node, CompoundPredicate, SimplePredicate, SimpleSetPredicate, True/False and ScoreDistribution elements, and round trip of the canonical XML of nodes and predicates of any depth. Hypothesis of the round trip: every number is read back from what the number writer writes; enumerations are canonical."},
{"property": "C57", "status": "proved", "theorems": ["Gopmml.Props.C57_document", "Gopmml.Props.C57_unknown", "Gopmml.Props.C57_node", "Gopmml.Props.C57_compound", "Gopmml.Props.C57_apply", "Gopmml.Props.C57_derived", "Gopmml.Props.C57_function", "Gopmml.Props.C57_segment", "Gopmml.Props.C57_table", "Gopmml.Props.C57_pmml"], "note": "If decoding succeeds, every hand-decoded element at any depth has only children of known kinds; conversely a child of unknown kind makes decoding fail. The lists of known kinds and the parts of a document are written down in Spec/Xml.lean. Elements the evaluator never reads are decoded by an arbitrary function (class Reflect)."},
{"property": "C58", "status": "proved", "theorems": ["Gopmml.Props.C58_roundtrip"], "note": "Hypotheses: numbers written by the writer parse back (Printable), enumeration values canonical, table cells are strings, exponents fit in 64 bits, and model kinds the evaluator does not support decode when empty (class Reflect). Fields of the document the evaluator never reads are not part of the model."},
{"property": "C59", "status": "proved", "theorems": ["Gopmml.Props.C59_panics", "Gopmml.Props.C59_no_panic"], "note": "Induction over constructed models; examples show both panics do occur."},
{"property": "C60", "status": "proved", "theorems": ["Gopmml.Props.C60_model_frame"], "note": "Induction over constructed models of any depth, for every map iteration order."},
{"property": "C61", "status": "proved", "theorems": ["Gopmml.Props.C61_rebuild", "Gopmml.Props.C61_recompile", "Gopmml.Props.C61_two_types"], "note": "Constants shared through the document are modelled (storeElem, EModel.sync). C61_two_types is the witness that the condition is needed."},
{"property": "C62", "status": "proved", "theorems": ["Gopmml.Props.C62_layout", "Gopmml.Props.C62_node"], "note": "Induction over the re-layout relation through every decoder; elements decoded by Reflect are required to be unchanged."},
{"property": "C63", "status": "proved", "theorems": ["Gopmml.Props.C63_live", "Gopmml.Props.C63_reuse", "Gopmml.Props.C63_reuse_changes"], "note": "Liveness is computed on the document. C63_reuse needs that no live field is written; C63_reuse_changes is a concrete document where that fails and the second answer differs."},
{"property": "C64", "status": "proved", "theorems": ["Gopmml.Props.C64_distribution", "Gopmml.Props.C64_alternate", "Gopmml.Props.C64_childParent", "Gopmml.Props.C64_alternate_unknown"], "note": ""},
{"property": "C65", "status": "proved", "theorems": ["Gopmml.Props.C65_linear", "Gopmml.Props.C65_link", "Gopmml.Props.C65_answers", "Gopmml.Props.C65_exact"], "note": "exp and atan are not modelled bit by bit: the float64 theorem asks that they are monotone, exp is not negative and NaN stays NaN. The products and sums are separately rounded (no fused multiply-add)."},
{"property": "C66", "status": "proved", "theorems": ["Gopmml.Props.C66_sum", "Gopmml.Props.C66_average", "Gopmml.Props.C66_order", "Gopmml.Props.C66_rounding", "Gopmml.Props.C66_disturbing"], "note": "C66_order is over the real numbers; C66_rounding and C66_disturbing show that neither exactness nor the proviso can be dropped."},
{"property": "C67", "status": "proved", "theorems": ["Gopmml.Props.C67_ignored", "Gopmml.Props.C67_scaled", "Gopmml.Props.C67_rounding"], "note": "C67_ignored for every arithmetic; C67_scaled over the reals; C67_rounding: witness that it fails in float64"},
{"property": "C68", "status": "proved", "theorems": ["Gopmml.Props.C68_simplified", "Gopmml.Props.C68_tests", "Gopmml.Props.C68_needed"], "note": "Under weightedConfidence tests may be simplified but no child removed: the map-order oracle is indexed by child position, so answers are compared order by order."},
{"property": "C69", "status": "proved", "theorems": ["Gopmml.Props.C69_answers", "Gopmml.Props.C69_rejected", "Gopmml.Props.C69_layout"], "note": "The tokeniser of encoding/xml is not modelled: files are element trees. Finding files, random rows and timing are left out."},
{"property": "C70", "status": "proved", "theorems": ["Gopmml.Props.C70_program", "Gopmml.Props.C70_safe", "Gopmml.Props.C70_race", "Gopmml.Props.C70_writers"], "note": "Only row accesses are steps; the key caches are C27's subject. Phases that only read are atomic: the safe case has no writes at all and the race counts writes only."},
{"property": "C71", "status": "proved", "theorems": ["Gopmml.Props.C71_forms", "Gopmml.Props.C71_number", "Gopmml.Props.C71_equality_differs"], "note": "Finding: whether the caller passes 7 as int or float64 decides the answer of a tree with an equality test on a double field."},
{"property": "C72", "status": "proved", "theorems": ["Gopmml.Props.C72_sum", "Gopmml.Props.C72_average", "Gopmml.Props.C72_regression", "Gopmml.Props.C72_probabilities", "Gopmml.Props.C72_multiclass", "Gopmml.Props.C72_order", "Gopmml.Props.C72_not_one"], "note": "Bounds relative to the float64 values of scores, coefficients and counts as parsed; the link functions exp and atan are arbitrary (their own error is not modelled)."},
{"property": "C73", "status": "proved", "theorems": ["Gopmml.Props.C73_row", "Gopmml.Props.C73_construction", "Gopmml.Props.C73_rename", "Gopmml.Props.C73_score_reserved", "Gopmml.Props.C73_verify_columns"], "note": "C73_construction and C73_rename are the claim; C73_row shows every row has exactly one renamed row; C73_score_reserved and C73_verify_columns show the two exceptions are real."},
{"property": "C74", "status": "proved", "theorems": ["Gopmml.Props.C74_int", "Gopmml.Props.C74_bool", "Gopmml.Props.C74_constant", "Gopmml.Props.C74_unique", "Gopmml.Props.C74_attribute", "Gopmml.Props.C74_threshold", "Gopmml.Props.C74_integer_threshold", "Gopmml.Props.C74_view", "Gopmml.Props.C74_nan_row", "Gopmml.Props.C74_float_not_rounded"], "note": "Float64 instance. The grammar is that of strconv.ParseFloat (Go 1.13 and later), including that only the first five digits of an exponent count; the library's fast paths are taken to round correctly."},
{"property": "C75", "status": "proved", "theorems": ["Gopmml.Props.C75_regression", "Gopmml.Props.C75_mining", "Gopmml.Props.C75_tree", "Gopmml.Props.C75_regression_same", "Gopmml.Props.C75_again", "Gopmml.Props.C75_accepted", "Gopmml.Props.C75_refused"], "note": "All documents; the two findings concern regression models, which the library never validates itself."},
{"property": "C76", "status": "proved", "theorems": ["Gopmml.Props.C76_one", "Gopmml.Props.C76_chain", "Gopmml.Props.C76_select", "Gopmml.Props.C76_inside", "Gopmml.Props.C76_sum", "Gopmml.Props.C76_nested_lost"], "note": "Neutral: no missing value replacements, no local transformations, outputs that Validate accepts. C76_sum is over the reals (floating point sums associate differently, C72 bounds the difference). C76_nested_lost is a finding."},
{"property": "C77", "status": "proved", "theorems": ["Gopmml.Props.C77_written", "Gopmml.Props.C77_written32", "Gopmml.Props.C77_roundtrip", "Gopmml.Props.C77_injective", "Gopmml.Props.C77_rows", "Gopmml.Props.C77_whole", "Gopmml.Props.C77_large", "Gopmml.Props.C77_map_large", "Gopmml.Props.C77_map_apart", "Gopmml.Props.C77_codes"], "note": "%v of floats is the model's fmtFloat (strconv shortest 'g' format)."},
{"property": "C78", "status": "proved", "theorems": ["Gopmml.Props.C78_alone", "Gopmml.Props.C78_separate", "Gopmml.Props.C78_dictionary", "Gopmml.Props.C78_race", "Gopmml.Props.C78_exactly", "Gopmml.Props.C78_same", "Gopmml.Props.C78_lost"], "note": "An append is one read and one write of the dictionary; stores into the document are recorded with their element, without content."},
{"property": "C79", "status": "proved", "theorems": ["Gopmml.Props.C79_tests", "Gopmml.Props.C79_same_side", "Gopmml.Props.C79_between", "Gopmml.Props.C79_between_int", "Gopmml.Props.C79_few", "Gopmml.Props.C79_computed"], "note": "C79_same_side needs tests by order only; C79_between, C79_between_int and C79_few also allow equality tests."},
{"property": "C80", "status": "proved", "theorems": ["Gopmml.Props.C80_rows", "Gopmml.Props.C80_untested", "Gopmml.Props.C80_exactly", "Gopmml.Props.C80_once", "Gopmml.Props.C80_cost"], "note": "Whether a test is made is observed through the panic of a nil predicate (C80_exactly), since tests have no other effect. C80_once and C80_cost are about the list that C80_exactly identifies."},
{"property": "C81", "status": "proved", "theorems": ["Gopmml.Props.C81_orders", "Gopmml.Props.C81_construction", "Gopmml.Props.C81_answers", "Gopmml.Props.C81_evaluators", "Gopmml.Props.C81_labels", "Gopmml.Props.C81_verify", "Gopmml.Props.C81_payloads"], "note": "GoesAlong lists the operations; Plain describes documents that compute no product; ByKeys describes the iteration orders."},
{"property": "C82", "status": "proved", "theorems": ["Gopmml.Props.C82_once", "Gopmml.Props.C82_cases", "Gopmml.Props.C82_factors", "Gopmml.Props.C82_sum", "Gopmml.Props.C82_difference", "Gopmml.Props.C82_construction", "Gopmml.Props.C82_plain", "Gopmml.Props.C82_never", "Gopmml.Props.C82_linear", "Gopmml.Props.C82_regression", "Gopmml.Props.C82_apart", "Gopmml.Props.C82_differs"], "note": "fma rounds the exact sum once; a number remembers its factors until it is used; fuse is an arbitrary function of the three operands. StandsFor says what an operand of a sum may stand for."},
{"property": "C83", "status": "proved", "theorems": ["Gopmml.Props.C83_answers", "Gopmml.Props.C83_row", "Gopmml.Props.C83_row_size", "Gopmml.Props.C83_cache"], "note": "Counts map entries, not bytes. The example beside the theorems reaches the cache bound."},
{"property": "C84", "status": "proved", "theorems": ["Gopmml.Props.C84_order", "Gopmml.Props.C84_range", "Gopmml.Props.C84_average_outside"], "note": "The order theorem speaks of the segments' contributions in the run of the ensemble (SegsRun); ranges are given per tree by its labels."},
{"property": "C85", "status": "proved", "theorems": ["Gopmml.Props.C85_evaluate", "Gopmml.Props.C85_exceeds"], "note": "Float64 version of C19. C85_exceeds shows that the error is real: under weightedConfidence a certain label gets 1 + 2^-52."},
{"property": "C86", "status": "proved", "theorems": ["Gopmml.Props.C86_collapse", "Gopmml.Props.C86_nil_beside", "Gopmml.Props.C86_regression", "Gopmml.Props.C86_half_filled"], "note": "Removes the simplification that an error is returned alone."},
{"property": "C87", "status": "proved", "theorems": ["Gopmml.Props.C87_agrees", "Gopmml.Props.C87_not_nil", "Gopmml.Props.C87_nil_dictionary", "Gopmml.Props.C87_nil_element", "Gopmml.Props.C87_usable"], "note": "Nil models inside segments, which decoding never produces, are not considered."},
{"property": "C88", "status": "proved", "theorems": ["Gopmml.Props.C88_tree", "Gopmml.Props.C88_same_trees", "Gopmml.Props.C88_forest", "Gopmml.Props.C88_check", "Gopmml.Props.C88_unordered_falls", "Gopmml.Props.C88_null_prediction_falls"], "note": "C88_null_prediction_falls shows that with nullPrediction the same trees have to predict on both rows. The criterion is sufficient, not necessary: a band test such as 3<=x<=4 counts as neither up nor down."},
{"property": "C89", "status": "proved", "theorems": ["Gopmml.Props.C89_alone", "Gopmml.Props.C89_any_execution", "Gopmml.Props.C89_repeatable", "Gopmml.Props.C89_evaluators", "Gopmml.Props.C89_serial", "Gopmml.Props.C89_two_types"], "note": "C89_alone ties the programs of accesses to newModel and EModel.evaluate. A single access is taken to be atomic; rows are not shared (see C70); key caches are left to C27. Compile called again on an evaluator in use is not part of it (C44, C61)."},
{"property": "C90", "status": "proved", "theorems": ["Gopmml.Props.C90_alone", "Gopmml.Props.C90_one_way", "Gopmml.Props.C90_bounded", "Gopmml.Props.C90_never_blocked"], "note": "Counts accesses to the shared document, two per comparison, not Go instructions. The key caches are left to C27; the code takes no locks."},
{"property": "C91", "status": "proved", "theorems": ["Gopmml.Props.C91_construction", "Gopmml.Props.C91_answers", "Gopmml.Props.C91_same", "Gopmml.Props.C91_one_to_one"], "note": "Renaming with labelElem ν id id of Spec/Labels."},
{"property": "C92", "status": "proved", "theorems": ["Gopmml.Props.C92_names", "Gopmml.Props.C92_construction", "Gopmml.Props.C92_answers", "Gopmml.Props.C92_probabilities", "Gopmml.Props.C92_same", "Gopmml.Props.C92_other_order", "Gopmml.Props.C92_empty", "Gopmml.Props.C92_chain"], "note": "Apart and Names in Spec/Labels say which documents and names are meant; modelChain is excluded (C92_chain)."},
{"property": "C93", "status": "proved", "theorems": ["Gopmml.Props.C93_by_reference", "Gopmml.Props.C93_program", "Gopmml.Props.C93_kept", "Gopmml.Props.C93_verify"], "note": "Only maps of type DataRow are on the heap; values are copied."},
{"property": "C94", "status": "proved", "theorems": ["Gopmml.Props.C94_never_fails", "Gopmml.Props.C94_certain", "Gopmml.Props.C94_regression", "Gopmml.Props.C94_regression_exact", "Gopmml.Props.C94_expression_exact"], "note": "The check is not complete for trees and for expressions with if or MapValues (an example is beside the theorems)."},
{"property": "C95", "status": "proved", "theorems": ["Gopmml.Props.C95_test", "Gopmml.Props.C95_tree", "Gopmml.Props.C95_null", "Gopmml.Props.C95_regression", "Gopmml.Props.C95_model", "Gopmml.Props.C95_ensemble"], "note": "Tests for isMissing, surrogates, replacement values, the other strategies and unanswered trees in sums are excluded by hypotheses; examples beside the theorems show that each exclusion is needed."},
{"property": "C96", "status": "proved", "theorems": ["Gopmml.Props.C96_rules", "Gopmml.Props.C96_null", "Gopmml.Props.C96_nodes", "Gopmml.Props.C96_flattened"], "note": "For trees whose nodes all have predicates, with the default strategy or nullPrediction and without returnNullPrediction; examples show that the other strategies and returnNullPrediction must be excluded."},
{"property": "C97", "status": "proved", "theorems": ["Gopmml.Props.C97_gone", "Gopmml.Props.C97_construction", "Gopmml.Props.C97_inline"], "note": "Rows that are not nil (a nil row panics at the first derived field, which may be one taken out)."},
{"property": "C98", "status": "proved", "theorems": ["Gopmml.Props.C98_expression", "Gopmml.Props.C98_construction", "Gopmml.Props.C98_document", "Gopmml.Props.C98_constant"], "note": "An example shows that constants inside a sum with a field must not be added first."},
{"property": "C99", "status": "proved", "theorems": ["Gopmml.Props.C99_cover", "Gopmml.Props.C99_equal", "Gopmml.Props.C99_all", "Gopmml.Props.C99_decided"], "note": "A field declared integer that is compared with the largest int64 gives a sample one above it, which no Go caller can pass."}
]}
