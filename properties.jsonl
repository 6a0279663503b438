{"id": "C01", "title": "Ordering predicates compare exactly as declared", "statement": "For every tree accepted by NewTreeModel, a SimplePredicate lessThan/lessOrEqual/greaterThan/greaterOrEqual on a present field is true exactly when the IEEE comparison of the value's float64 view (double/float fields) or the signed comparison of its int64 view (integer fields) with the constant written in the document holds, false otherwise, never unknown, and never panics; on fields of any other data type it is false.", "quantifier": "all field types, operators, constants, row values (including NaN, infinities, signed zeros)", "why_tests_cant": "infinite value domain; boundary constants and NaN must all be right", "anchors": ["evaluation/tree.go:evaluateSimplePredicate", "evaluation/tree.go:compilePredicate", "evaluation/evaluation.go:getRawValue"]}
{"id": "C02", "title": "Absent fields make simple predicates unknown", "statement": "When the row has no entry for the field of an accepted SimplePredicate, the predicate is unknown for every operator except isMissing, for which it is true; when the row has an entry, no operator yields unknown, isMissing is false and isNotMissing is true. (PMML additionally requires isNotMissing to be false on an absent field: the code violates that and the negation is proved.)", "quantifier": "all operators, fields, rows", "why_tests_cant": "must hold for every operator/field/row combination", "anchors": ["evaluation/tree.go:evaluateSimplePredicate"]}
{"id": "C03", "title": "Compound predicates are three-valued logic", "statement": "A CompoundPredicate built from simple, set and compound predicates, nested to any depth, evaluates by Kleene conjunction (and), Kleene disjunction (or), parity with unknown absorbing (xor), and first-known (surrogate). (With True/False as a nested operand the PMML meaning is violated: the operand is treated as unknown; negation proved.)", "quantifier": "all predicate trees of any depth and width, all rows", "why_tests_cant": "unbounded nesting and width", "anchors": ["evaluation/tree.go:evaluateCompoundPredicate"]}
{"id": "C04", "title": "Operand order of and/or/xor is irrelevant", "statement": "Permuting the operands of an and/or/xor compound predicate never changes its value.", "quantifier": "all operand lists and permutations", "why_tests_cant": "permutations of unbounded lists", "anchors": ["evaluation/tree.go:evaluateCompoundPredicate"]}
{"id": "C05", "title": "Tree tests read only the fields they mention", "statement": "Two rows that agree on every field mentioned in a predicate give the predicate the same value; two rows that agree on every field mentioned anywhere in a tree model get the same prediction.", "quantifier": "all predicates/trees and pairs of rows", "why_tests_cant": "universally quantified over pairs of rows", "anchors": ["evaluation/tree.go:evaluateSimplePredicate", "evaluation/tree.go:node.evaluate"]}
{"id": "C06", "title": "Threshold splits partition the numeric domain", "statement": "For any constant c and any present non-NaN numeric value of a double/float field exactly one of (lessThan c, greaterOrEqual c) and exactly one of (lessOrEqual c, greaterThan c) is true when c is not NaN; for NaN values neither is; for integer fields the same partition holds for every value.", "quantifier": "all constants and values", "why_tests_cant": "all 2^64 values", "anchors": ["evaluation/tree.go:evaluateSimplePredicate"]}
{"id": "C07", "title": "Equality predicates are exact on dynamic type and value", "statement": "equal on a present field is true iff the row value has the very Go type produced by parsing the constant (bool, float64, int64, string) and compares equal to it; notEqual is its exact negation on present fields.", "quantifier": "all values of all Go dynamic types", "why_tests_cant": "all types x values", "anchors": ["evaluation/tree.go:evaluateSimplePredicate"]}
{"id": "C08", "title": "Tree construction accepts exactly the well-formed trees", "statement": "NewTreeModel succeeds iff the mining function is classification or regression and every SimplePredicate anywhere in the tree (inside compounds at any depth) names a declared data/derived field whose type is boolean/double/float/integer/string and its constant parses at that type; otherwise it returns an error, and it never panics.", "quantifier": "all documents", "why_tests_cant": "unbounded trees", "anchors": ["evaluation/tree.go:NewTreeModel", "evaluation/tree.go:Validate", "evaluation/tree.go:newNode", "evaluation/tree.go:compilePredicate"]}
{"id": "C09", "title": "Predictions of constructed trees never hit a type-assertion panic", "statement": "For every tree returned by NewTreeModel whose nodes all carry a predicate, evaluating any row under any missing-value strategy never panics inside predicate evaluation or tree descent.", "quantifier": "all trees, rows, strategies", "why_tests_cant": "all inputs", "anchors": ["evaluation/tree.go:evaluateSimplePredicate", "evaluation/tree.go:node.evaluate"]}
{"id": "C10", "title": "Validate is idempotent and only fills defaults", "statement": "TreeModel.Validate applied twice equals once; it changes no mining field's name, target role, replacement value, nor the number or order of fields.", "quantifier": "all documents", "why_tests_cant": "all documents", "anchors": ["evaluation/tree.go:Validate"]}
{"id": "C11", "title": "Recompiling a tree does not change its predictions", "statement": "Calling Compile any number of further times on a constructed TreeModel leaves the result of Evaluate unchanged on every row, although each call appends the model's local transformations to the shared TransformationDictionary again.", "quantifier": "all models, all numbers of recompilations, all rows", "why_tests_cant": "unbounded histories", "anchors": ["evaluation/tree.go:Compile"]}
{"id": "C12", "title": "Default tree strategy follows the first true child", "statement": "With the default strategy (none or any unrecognised one) the distribution used is that of the last node on the path from the root obtained by repeatedly moving to the first child whose test is true (unknown counting as not true); there is no prediction iff the root's test is not true.", "quantifier": "all trees and rows", "why_tests_cant": "unbounded depth and fan-out", "anchors": ["evaluation/tree.go:evaluateMissingValueStrategyNone"]}
{"id": "C13", "title": "nullPrediction never predicts through an unknown", "statement": "With nullPrediction, descending through first non-false children, the model predicts iff no unknown test is met on that descent, and then predicts as strategy none; if an unknown is met it returns no row and no error.", "quantifier": "all trees and rows", "why_tests_cant": "unbounded", "anchors": ["evaluation/tree.go:evaluateMissingValueStrategyNullPrediction"]}
{"id": "C14", "title": "lastPrediction stops at the last fully known node", "statement": "With lastPrediction a node whose children include an unknown result answers with its own distribution; otherwise with the distribution of its last true child having a non-empty distribution answer, else its own; every answer is the output distribution of some node of the tree.", "quantifier": "all trees and rows", "why_tests_cant": "unbounded", "anchors": ["evaluation/tree.go:evaluateMissingValueStrategyLastPrediction"]}
{"id": "C15", "title": "defaultChild descends to the default child with a penalty", "statement": "With defaultChild, when some child is unknown the node answers with the evaluated distribution of the child named by defaultChild with every confidence and probability multiplied by missingValuePenalty (labels, counts and order unchanged), and has no answer if no child has that id.", "quantifier": "all trees and rows", "why_tests_cant": "unbounded", "anchors": ["evaluation/tree.go:evaluateMissingValueStrategyDefaultChild"]}
{"id": "C16", "title": "weightedConfidence is the record-count weighted mean of live children", "statement": "With weightedConfidence and children with distinct ids, when some child is unknown, the probability reported for each label is the sum over non-false children of child probability times childCount/totalCount. (With equal or absent ids the code drops children: negation proved.)", "quantifier": "all trees, rows, map orders", "why_tests_cant": "unbounded and map order", "anchors": ["evaluation/tree.go:evaluateMissingValueStrategyWeightedConfidence"]}
{"id": "C17", "title": "aggregateNodes reports relative record counts", "statement": "With aggregateNodes, when some child is unknown, the probability of a label is its share of all record counts collected from the children's answers.", "quantifier": "all trees, rows, map orders", "why_tests_cant": "unbounded and map order", "anchors": ["evaluation/tree.go:evaluateMissingValueStrategyAggregateNodes"]}
{"id": "C18", "title": "Reported probabilities lie in [0,1] in float64 arithmetic", "statement": "Probabilities computed from non-negative record counts (node distributions, aggregateNodes) and probabilities scaled by a penalty in [0,1] are, in IEEE-754 binary64 arithmetic with round-to-nearest-even, either NaN or between 0 and 1.", "quantifier": "all counts, any number of labels, all float64 values", "why_tests_cant": "rounding must be right for all floats", "anchors": ["evaluation/tree.go:newNode", "evaluation/tree.go:evaluateMissingValueStrategyAggregateNodes", "evaluation/tree.go:evaluateMissingValueStrategyDefaultChild"]}
{"id": "C19", "title": "Reported probabilities sum to one", "statement": "In exact arithmetic, node distributions derived from record counts, and aggregateNodes / weightedConfidence answers built from distributions summing to one, sum to one whenever the total count is non-zero.", "quantifier": "all trees and rows", "why_tests_cant": "unbounded number of labels and children", "anchors": ["evaluation/tree.go:newNode", "evaluation/tree.go:evaluateMissingValueStrategyWeightedConfidence", "evaluation/tree.go:evaluateMissingValueStrategyAggregateNodes"]}
{"id": "C20", "title": "The predicted class has maximal probability", "statement": "The label a classification tree reports is one whose probability no other reported label exceeds, the first such in document/distribution order; if no probability is positive the reported label is the empty string.", "quantifier": "all distributions", "why_tests_cant": "all lists of floats including NaN", "anchors": ["evaluation/tree.go:pickBest", "evaluation/tree.go:TreeModel.Evaluate"]}
{"id": "C21", "title": "Classification output has exactly the target and one probability per label", "statement": "A successful classification prediction is a row whose keys are exactly the target field name and probability(L) for each label L of the answering distribution; each probability(L) carries L's reported probability.", "quantifier": "all trees and rows", "why_tests_cant": "all inputs", "anchors": ["evaluation/tree.go:TreeModel.Evaluate"]}
{"id": "C22", "title": "Regression trees output exactly the parsed score", "statement": "A regression tree answers with the single key score holding the float parsed from the answering distribution's first value, or an error if that does not parse. (It panics when the answering distribution is empty, e.g. for every leaf without ScoreDistribution when a continuous target field is declared: negation proved.)", "quantifier": "all trees and rows", "why_tests_cant": "all inputs", "anchors": ["evaluation/tree.go:TreeModel.Evaluate", "evaluation/tree.go:outputScoreDist"]}
{"id": "C23", "title": "No label is ever invented", "statement": "Every label reported by a classification tree, under every strategy and map order, is a node score, a ScoreDistribution value or a declared value of the target field in the document (or the empty label when nothing has positive probability).", "quantifier": "all trees, rows, strategies, map orders", "why_tests_cant": "unbounded", "anchors": ["evaluation/tree.go:outputScoreDist", "evaluation/tree.go:node.evaluate"]}
{"id": "C24", "title": "All missing-value strategies agree when nothing is missing", "statement": "If no test met is unknown and sibling tests are mutually exclusive, every missing-value strategy yields the same prediction as the default strategy.", "quantifier": "all trees and rows satisfying the premise", "why_tests_cant": "relational over unbounded trees", "anchors": ["evaluation/tree.go:node.evaluate"]}
{"id": "C25", "title": "Predictions do not depend on Go's map iteration order", "statement": "For models without weightedConfidence/aggregateNodes trees, Evaluate returns the same row, error and input mutation whatever order Go iterates maps in; for those two strategies, in exact arithmetic, every reported probability is order independent and the reported label is order independent unless two labels tie (negation for ties proved).", "quantifier": "all iteration orders at every map range, all models (nested to any depth), all rows", "why_tests_cant": "the runtime randomises order; tests sample few orders", "anchors": ["evaluation/tree.go:node.evaluate", "evaluation/mining.go:evaluateMultipleModelSum", "evaluation/mining.go:evaluateMultipleModelChain", "evaluation/mining.go:imputeMissingValues"]}
{"id": "C26", "title": "Predictions do not depend on call history", "statement": "After any sequence of Evaluate calls on a constructed model (nested to any depth), Evaluate on a row returns exactly what it returns on the freshly constructed model.", "quantifier": "all histories of any length, all models", "why_tests_cant": "unbounded histories", "anchors": ["evaluation/tree.go:TreeModel.Evaluate (outKeys)"]}
{"id": "C27", "title": "Concurrent Evaluate on a warmed-up tree writes no shared state", "statement": "Once a tree has answered for every label it can answer with, any number of goroutines evaluating it concurrently never write the shared key cache; on a cold tree two goroutines can reach a concurrent write (negation of unconditional thread safety proved); under atomic accesses every goroutine always obtains the right output keys whatever the interleaving.", "quantifier": "all numbers of goroutines, all interleavings", "why_tests_cant": "schedules", "anchors": ["evaluation/tree.go:TreeModel.Evaluate (outKeys)"]}
{"id": "C28", "title": "Life-cycle errors come first and touch nothing", "statement": "Evaluate on a tree or mining model that was not validated returns ErrNotValidated, and on one validated but not compiled ErrNotCompiled, leaving the input row unchanged.", "quantifier": "all model states and rows", "why_tests_cant": "all states", "anchors": ["evaluation/tree.go:TreeModel.Evaluate", "evaluation/mining.go:MiningModel.Evaluate"]}
{"id": "C29", "title": "Derived fields are computed in order and visible to later ones", "statement": "HandleInput evaluates local derived fields in document order, each seeing the row as updated by all earlier ones; continuous ones are stored as float64; the first failing expression stops processing with its error. A tree or ensemble does this (an ensemble after filling in missing values) before anything else and then acts exactly like the same model without derived fields on the row that results.", "quantifier": "all transformation lists and rows", "why_tests_cant": "unbounded lists", "anchors": ["evaluation/input.go:HandleInput", "evaluation/tree.go:Evaluate", "evaluation/mining.go:Evaluate"]}
{"id": "C30", "title": "Arithmetic expressions denote arithmetic", "statement": "For every expression tree over field references, double constants, + - * / and sum, HandleExpression returns the value of the expression with each field read as its float64 view (absent fields as 0), bottom-up and left to right, and never modifies the row.", "quantifier": "all expression trees", "why_tests_cant": "unbounded trees", "anchors": ["evaluation/input.go:HandleExpression", "evaluation/input.go:handleApplyExpression"]}
{"id": "C31", "title": "if evaluates only the taken branch", "statement": "Apply if returns exactly what the chosen branch returns (value or error); the other branch never influences the result; a non-boolean condition selects the else branch; an error in the condition is returned.", "quantifier": "all expressions", "why_tests_cant": "all sub-expressions including failing ones", "anchors": ["evaluation/input.go:handleApplyExpression"]}
{"id": "C32", "title": "isMissing and isNotMissing are complementary", "statement": "On every expression, isMissing and isNotMissing either fail with the same error or return opposite booleans; isMissing is true exactly for the nil value, hence for an absent field.", "quantifier": "all expressions and rows", "why_tests_cant": "all inputs", "anchors": ["evaluation/input.go:isMissing"]}
{"id": "C33", "title": "MapValues applies the last matching row", "statement": "MapValues returns the output cell of the last inline-table row whose input cell equals the string form of the mapped field; if none matches, the default value if declared, else the input value unchanged; an error only if there is neither.", "quantifier": "all tables and rows", "why_tests_cant": "unbounded tables", "anchors": ["evaluation/input.go:handleMapValuesExpression"]}
{"id": "C34", "title": "Ill-formed expressions are errors", "statement": "HandleExpression never panics; unknown functions, wrong arities, non-double constants and unsupported expression kinds anywhere on the evaluated path yield an error.", "quantifier": "all expressions", "why_tests_cant": "all inputs", "anchors": ["evaluation/input.go:HandleExpression", "evaluation/input.go:handleApplyExpression"]}
{"id": "C35", "title": "Expressions read only the fields they mention", "statement": "Two rows that agree on every field mentioned in an expression give it the same result.", "quantifier": "all expressions, pairs of rows", "why_tests_cant": "relational", "anchors": ["evaluation/input.go:HandleExpression"]}
{"id": "C36", "title": "multipleModelMethod sum adds segment scores", "statement": "A sum ensemble returns exactly one entry per output field and target; each is the left-to-right float sum over segments of the segment's score (regression) or same-named entry (classification), absent entries contributing nothing, then for targets multiplied by rescaleFactor and incremented by rescaleConstant in document order.", "quantifier": "all ensembles of any size and nesting, all rows, all map orders", "why_tests_cant": "unbounded ensembles", "anchors": ["evaluation/mining.go:evaluateMultipleModelSum"]}
{"id": "C37", "title": "average is the sum divided by the number of segments", "statement": "An average ensemble returns the sum ensemble's row with each value divided by the number of segments, for every number of segments; in exact arithmetic without rescaling the result lies between the least and greatest segment score.", "quantifier": "all ensembles", "why_tests_cant": "unbounded", "anchors": ["evaluation/mining.go:evaluateMultipleModelAverage"]}
{"id": "C38", "title": "selectFirst returns the first segment's answer", "statement": "A selectFirst ensemble returns exactly what its first segment returns on the prepared row and never evaluates the others; with no segments it returns an error. (Segment predicates are ignored: negation of PMML selectFirst proved.)", "quantifier": "all ensembles", "why_tests_cant": "unbounded", "anchors": ["evaluation/mining.go:evaluateMultipleModelSelectFirst"]}
{"id": "C39", "title": "modelChain feeds outputs forward", "statement": "A model chain evaluates segments in order, each on the row extended and overridden by the previous segment's output, and returns the last segment's output; with no segments an empty row.", "quantifier": "all chains of any length, all map orders", "why_tests_cant": "unbounded", "anchors": ["evaluation/mining.go:evaluateMultipleModelChain"]}
{"id": "C40", "title": "Missing value replacement fills exactly the missing fields", "statement": "Before evaluation a mining model sets a field with missingValueReplacement to that string iff it is absent or nil in the row, and changes nothing else, in any map order.", "quantifier": "all schemas, rows, map orders", "why_tests_cant": "all inputs", "anchors": ["evaluation/mining.go:imputeMissingValues", "evaluation/mining.go:Compile"]}
{"id": "C41", "title": "Evaluate changes only replacement, derived and chained fields of the input row", "statement": "After Evaluate, for every model nested to any depth, every key of the caller's row that is not a replacement field, a local derived field, or (below a model chain) an output key of a segment has its old value or absence; regression models change nothing.", "quantifier": "all models, rows", "why_tests_cant": "unbounded nesting", "anchors": ["evaluation/input.go:HandleInput", "evaluation/mining.go:MiningModel.Evaluate", "evaluation/tree.go:TreeModel.Evaluate"]}
{"id": "C42", "title": "Segment errors propagate", "statement": "If a segment that the method evaluates returns an error, the ensemble returns that same error and no row.", "quantifier": "all ensembles", "why_tests_cant": "position of the failing segment is unbounded", "anchors": ["evaluation/mining.go:evaluateMultipleModelSum", "evaluation/mining.go:evaluateMultipleModelChain", "evaluation/mining.go:evaluateMultipleModelSelectFirst"]}
{"id": "C43", "title": "Mining model construction accepts exactly supported documents", "statement": "NewMiningModel succeeds iff the (defaulted) method is sum, average, modelChain or selectFirst, every output feature is absent or probability, every segment holds exactly one model and that model is itself accepted by NewModel with the transformation dictionary accumulated so far; NewModel rejects every other model kind.", "quantifier": "all documents, any nesting", "why_tests_cant": "unbounded nesting", "anchors": ["evaluation/mining.go:NewMiningModel", "evaluation/mining.go:Validate", "evaluation/mining.go:Compile", "evaluation/evaluation.go:NewModel"]}
{"id": "C44", "title": "Recompiling a mining model is harmless", "statement": "Compile called again on a constructed MiningModel does not change predictions. (False: segments are appended again, so a sum ensemble doubles; the negation is proved, and the exact effect of n recompilations.)", "quantifier": "all models, numbers of recompilations", "why_tests_cant": "unbounded", "anchors": ["evaluation/mining.go:Compile"]}
{"id": "C45", "title": "Regression formula", "statement": "A regression-function RegressionModel with one table and one output returns normalize(intercept + sum coefficient*value) under that output name, folding predictors left to right in float arithmetic.", "quantifier": "all tables and rows", "why_tests_cant": "unbounded predictor lists", "anchors": ["evaluation/regression.go:EvaluateRegression", "evaluation/regression.go:normalize"]}
{"id": "C46", "title": "Missing regression terms are errors", "statement": "If any predictor reached by evaluation is absent from the row, Evaluate returns an error and no row, for regression, binary and multi-class models; conversely with all predictors present and a supported normalisation evaluation succeeds.", "quantifier": "all models and rows", "why_tests_cant": "all subsets of missing predictors", "anchors": ["evaluation/regression.go:EvaluateRegression", "evaluation/regression.go:EvaluateBinaryClassification", "evaluation/regression.go:EvaluateMulticlassClassification"]}
{"id": "C47", "title": "Softmax outputs form a probability distribution", "statement": "Multi-class softmax outputs are in (0,1], sum to one, preserve the order of the linear scores and are unchanged when all intercepts are shifted by a constant, in exact arithmetic; in binary64 arithmetic each is NaN or in [0,1].", "quantifier": "all numbers of classes, all scores", "why_tests_cant": "unbounded", "anchors": ["evaluation/regression.go:EvaluateMulticlassClassification"]}
{"id": "C48", "title": "Binary classification probabilities are complementary", "statement": "With one table with predictors followed by one without, the two reported probabilities sum to one in exact arithmetic, and the second is exactly the rounded 1-p in float arithmetic.", "quantifier": "all inputs", "why_tests_cant": "all floats", "anchors": ["evaluation/regression.go:EvaluateBinaryClassification"]}
{"id": "C49", "title": "Link functions have the right range and are monotone", "statement": "In exact arithmetic logit/softmax links lie in (0,1), cloglog in (0,1), cauchit in (0,1), exp is positive and all are strictly increasing; in binary64 the logit link is NaN or in [0,1] for any exp that is NaN or non-negative.", "quantifier": "all real / float arguments", "why_tests_cant": "continuum", "anchors": ["evaluation/regression.go:normalize"]}
{"id": "C50", "title": "Regression evaluation is pure", "statement": "Evaluating a RegressionModel never modifies the input row nor the model and never panics.", "quantifier": "all models, rows", "why_tests_cant": "all inputs", "anchors": ["evaluation/regression.go:RegressionModel.Evaluate"]}
{"id": "C51", "title": "Integer views preserve in-range integers and wrap otherwise", "statement": "Value.Int64 returns the stored integer for every Go integer kind when it fits int64, its two's complement wrap for uint/uint64 beyond, and 0 for every other dynamic type.", "quantifier": "all values of all integer kinds", "why_tests_cant": "2^64 values x 10 kinds", "anchors": ["evaluation/miningschema.go:Int64"]}
{"id": "C52", "title": "Float and bool views are total and faithful", "statement": "Value.Float64 returns float64/float32 contents exactly, the parse of a string or 0 if unparsable, the rounded integer for integer kinds, 0 for anything else; Bool is true only for true; String returns strings unchanged; Float32 returns a float32 as it is and the nearest float32 of a float64 or integer.", "quantifier": "all dynamic values", "why_tests_cant": "all inputs", "anchors": ["evaluation/miningschema.go:Float64", "evaluation/miningschema.go:Bool", "evaluation/miningschema.go:String", "evaluation/miningschema.go:Float32"]}
{"id": "C53", "title": "Verify accepts only matching models", "statement": "If Verify returns nil, then for every verification row Evaluate succeeded on it and every column declared with a precision was produced by the model with not(|expected-predicted| > 1e-5*expected); conversely Verify returns nil when all rows satisfy this; in every map order. (Negative expected values can never pass in exact arithmetic, nor in float64 when finite with a tolerance that does not underflow; NaN predictions always pass: all proved.)", "quantifier": "all verification tables, models, map orders", "why_tests_cant": "unbounded tables, map order", "anchors": ["evaluation/evaluation.go:verifyModel"]}
{"id": "C54", "title": "Verify does not disturb the model", "statement": "Calling Verify any number of times does not change the result of any later Evaluate.", "quantifier": "all models, histories", "why_tests_cant": "unbounded histories", "anchors": ["evaluation/evaluation.go:verifyModel"]}
{"id": "C55", "title": "Array accessors are type safe, idempotent and cached", "statement": "ArrayType.Strings/Int64s/Float64s fail on arrays of another type; when they succeed they return the parsed words in order, and every later call returns the same list even after RawValue is changed; a failed numeric call leaves nothing cached.", "quantifier": "all arrays, all call sequences", "why_tests_cant": "unbounded histories", "anchors": ["models/complexTypes.go:ArrayType.Strings", "models/complexTypes.go:ArrayType.Int64s", "models/complexTypes.go:ArrayType.Float64s"]}
{"id": "C56", "title": "Decoding a tree node keeps every child in document order", "statement": "Decoding a <Node> element succeeds only if all child elements are of known kinds, and yields exactly the attributes, child nodes and score distributions in document order and the last predicate; decoding the canonical XML of any node of any depth returns that node.", "quantifier": "all XML elements of any depth", "why_tests_cant": "unbounded documents", "anchors": ["models/elements.go:Node.UnmarshalXML", "models/elements.go:CompoundPredicate.UnmarshalXML", "models/groups.go:GetPredicate"]}
{"id": "C57", "title": "Decoding rejects unknown child elements in hand-written decoders", "statement": "For the hand-written decoders (PMML, Node, CompoundPredicate, Apply, DerivedField, Segment, InlineTable) a child element whose name the decoder does not know always makes decoding fail, whatever is inside it; elements are never silently dropped.", "quantifier": "all documents", "why_tests_cant": "unbounded documents", "anchors": ["models/elements.go:UnmarshalXML"]}
{"id": "C58", "title": "A written document is read back exactly", "statement": "Decoding the canonical XML of any document (data dictionary, transformation dictionary, tree, regression and mining models nested to any depth, predicates, expressions, inline tables, verification records) yields exactly that document: nothing is lost, reordered or altered.", "quantifier": "all documents of any size and depth", "why_tests_cant": "unbounded documents", "anchors": ["models/elements.go:PMML.UnmarshalXML", "models/elements.go:Segment.UnmarshalXML", "models/elements.go:DerivedField.UnmarshalXML", "models/elements.go:InlineTable.UnmarshalXML"]}
{"id": "C59", "title": "Constructed models panic only in two named ways", "statement": "Take any model document whose tree nodes all carry predicates and for which NewModel succeeds, nested to any depth. Evaluate on it can only panic with a write to a nil map, and then the caller passed a nil row, or with an index out of range, and then the document contains a regression tree. With a non-nil row and no regression tree inside, Evaluate never panics.", "quantifier": "all constructed models of any depth, all rows, all map orders", "why_tests_cant": "unbounded documents and rows", "anchors": ["evaluation/mining.go:MiningModel.Evaluate", "evaluation/tree.go:TreeModel.Evaluate", "evaluation/regression.go:Evaluate"]}
{"id": "C60", "title": "Models read only the fields they mention", "statement": "Two non-nil rows that agree on every field named by a predicate, predictor or derived-field expression anywhere in the model document (nested to any depth) get the same answer or the same error from Evaluate, and still agree on those fields after the call.", "quantifier": "all constructed models of any depth, all pairs of rows, all map orders", "why_tests_cant": "unbounded documents and pairs of rows", "anchors": ["evaluation/mining.go:MiningModel.Evaluate", "evaluation/tree.go:TreeModel.Evaluate", "evaluation/regression.go:Evaluate"]}
{"id": "C61", "title": "Building a document again is repeatable and disturbs no earlier evaluator", "statement": "If no field is declared with two different types (by the data dictionary, the transformation dictionary and all local transformations of the document), then calling NewModel again on the same document with the dictionary as it has become succeeds, the new evaluator answers every row as the first one did, and the first one still answers as before although both share the constants stored in the document's predicates. When a field is declared with two types this fails: the second evaluator may answer otherwise and the first may panic.", "quantifier": "all documents nested to any depth, all larger dictionaries, all rows and map orders", "why_tests_cant": "unbounded documents and sequences of constructions", "anchors": ["evaluation/evaluation.go:NewModel", "evaluation/tree.go:compilePredicate", "evaluation/tree.go:TreeModel.Compile", "evaluation/mining.go:MiningModel.Compile"]}
{"id": "C62", "title": "The layout of a document does not matter", "statement": "Two documents that differ only in text between elements, in the order of attributes, in attributes no decoder reads, and in the spelling of table cells decode alike: one decodes to a document exactly if the other decodes to that same document. (The source of Constant elements and the characters of table cells are not layout.)", "quantifier": "all pairs of documents of any size and depth related by re-layout", "why_tests_cant": "unbounded documents and rewritings", "anchors": ["models/elements.go:PMML.UnmarshalXML", "models/elements.go:Node.UnmarshalXML", "models/elements.go:CompoundPredicate.UnmarshalXML", "models/elements.go:Segment.UnmarshalXML"]}
{"id": "C63", "title": "Only the live fields of the row matter; rows can be reused", "statement": "The answer of a constructed model depends only on the fields of the row that are live in its document: those read before the model itself computes them. If the model writes none of its live fields, then evaluating again the row a call has left behind gives the same answer as on the original row; if it does (a derived field with the name of an input), the second answer can differ.", "quantifier": "all documents NewModel accepts, nested to any depth; all pairs of rows; all map iteration orders", "why_tests_cant": "needs all rows and all documents; the rows differ in arbitrary other fields", "anchors": ["evaluation/input.go:HandleInput", "evaluation/tree.go:TreeModel.Evaluate", "evaluation/mining.go:MiningModel.Evaluate"]}
{"id": "C64", "title": "Alternate and ChildParent decode exactly the documents their loops know", "statement": "Decoding an Alternate succeeds exactly if every child element is one of the four distributions and decodes; the last one counts. Decoding a ChildParent succeeds exactly if isRecursive is yes or no wherever given, every child is an Extension, FieldColumnPair, InlineTable or TableLocator, and its inline tables decode; attributes, extensions and pairs are kept in order and the last table counts. Any other child makes decoding fail.", "quantifier": "all attribute lists and all element contents", "why_tests_cant": "unbounded contents; exact characterisation of acceptance", "anchors": ["models/elements.go:Alternate.UnmarshalXML", "models/elements.go:ChildParent.UnmarshalXML", "models/groups.go:GetContinuousDistributionType"]}
{"id": "C65", "title": "Regression answers are monotone in every input", "statement": "For a constructed regression model with one table: if every predictor moves in the direction of its coefficient (up where the coefficient is not negative, down where it is not positive), then the linear score and the answer after any of the five link functions do not fall. In float64 arithmetic this holds including rounding, overflow and signed zeros, unless one of the two answers is NaN; over the real numbers it holds without that proviso.", "quantifier": "all tables with any number of predictors, all coefficients, intercepts and pairs of rows, all link functions, all iteration orders, all exp/atan that are monotone", "why_tests_cant": "monotonicity is a statement about all pairs of inputs, and rounding at each step of an arbitrarily long sum could break it for a pair that was not tried", "anchors": ["evaluation/regression.go:65", "evaluation/regression.go:92"]}
{"id": "C66", "title": "Segments that do not disturb each other can be evaluated in any order", "statement": "The segments of a sum or average ensemble share one row. If no segment writes a field that is live in a later one, each segment contributes exactly what it answers on the prepared row alone. If no segment writes a field live in any other and no field has two types, then in exact arithmetic a document with its segments permuted gives the same answers and fails on the same rows. In float64 the order matters by rounding; with a disturbing segment it matters in any arithmetic.", "quantifier": "all ensembles with any number of segments, nested to any depth, all permutations, all rows, all map orders (documents without weightedConfidence/aggregateNodes trees for the permutation)", "why_tests_cant": "the number of orders grows factorially and disturbances are visible only on rows that lie between two thresholds", "anchors": ["evaluation/mining.go:151", "evaluation/mining.go:162", "evaluation/mining.go:193"]}
{"id": "C67", "title": "Record counts matter only as shares", "statement": "Where no tree uses weightedConfidence or aggregateNodes, record counts matter only through the shares that stand in for confidences and probabilities not given: documents that differ in other counts are accepted or rejected alike and answer alike, in any arithmetic. For every strategy, multiplying all record counts of a document by one nonzero factor changes nothing in exact arithmetic when the map order does not depend on stored values. In float64 scaling may change an answer by rounding.", "quantifier": "all documents (trees nested in ensembles to any depth), all dictionaries, all rows, all map orders (order depending on keys only for the second part), all factors", "why_tests_cant": "it relates pairs of documents and every factor; a test compares a few fixed trees", "anchors": ["evaluation/tree.go:111", "evaluation/tree.go:260", "evaluation/tree.go:343", "evaluation/tree.go:443"]}
{"id": "C68", "title": "Simplified tests and children never chosen", "statement": "In an accepted document, tests may be replaced by simpler ones of the same three-valued meaning (operands reordered, nested compounds of the same operator opened, single, repeated and absorbed operands removed, at any depth of the test), and children whose test is never anything but false may be left out, unless the strategy is weightedConfidence or aggregateNodes, or the child is the default child, or it is the last child under returnNullPrediction. The document is still accepted, and every answer and every row afterwards is the same. The exceptions for aggregateNodes, default child and returnNullPrediction are needed.", "quantifier": "all accepted documents (trees nested in ensembles to any depth), all sets of such rewrites at once, all dictionaries, all rows, all map orders, any arithmetic", "why_tests_cant": "it relates pairs of documents under unboundedly many rewrites; a test compares a few fixed trees", "anchors": ["evaluation/tree.go:100", "evaluation/tree.go:130", "evaluation/tree.go:177", "evaluation/tree.go:314", "evaluation/tree.go:615"]}
{"id": "C69", "title": "From a document to answers", "statement": "The program of main/perftest.go, run on the canonical file of a document and any sequence of rows: if the first model of the document is accepted, the answers are one by one those of a model built from the document itself and called once; the program crashes exactly if one of these calls fails, with the error of the first that does. A document without models, or whose first model is rejected, crashes it before any call. Files that differ only in layout give the same answers and crashes (an undecodable file may be rejected for another reason).", "quantifier": "all documents, all canonical files and all layouts, all sequences of calls of any length, all map orders per call", "why_tests_cant": "documents, layouts and numbers of calls are unbounded; a test runs a few files with a few rows", "anchors": ["main/perftest.go:47", "main/perftest.go:63", "main/perftest.go:73", "models/elements.go:3745", "evaluation/evaluation.go:19"]}
{"id": "C70", "title": "Goroutines that share a row", "statement": "Goroutines call accepted models, each its own, with one and the same row. If no document has local transformations or a chain of two or more segments, and the row already has every field with a missing-value replacement, then under every schedule nobody writes to the row, it stays as it is, and every call that finishes returns what it returns when made alone. Conversely any two calls that each write to the row when made alone can be inside a write at the same time, which the Go runtime answers by ending the process; a computable local transformation, or a replacement for a field the row lacks, makes a call write.", "quantifier": "all documents, rows, numbers of goroutines, models per goroutine, map orders and schedules", "why_tests_cant": "schedules are unboundedly many and a race shows only on some; go test -race sees only the interleavings that happened", "anchors": ["evaluation/mining.go:137", "evaluation/mining.go:217", "evaluation/input.go:194", "evaluation/mining.go:224"]}
{"id": "C71", "title": "The form of an input", "statement": "Give every field a form: exact, as a float, as an integer, what certain tests say of it, or only nil or not. If nothing a document does with a field needs more than its form (equality tests need the exact value, ordering tests the float or the integer depending on the declared type, arithmetic and predictors the float, isMissing only nil-ness), then rows whose fields agree up to their forms get the same answer or error, and still agree up to them afterwards. In particular an int of any Go type, the float64 of it and a string that reads as it are interchangeable. With an equality test they are not.", "quantifier": "all documents nested to any depth, all assignments of forms, all rows, map orders, float semantics", "why_tests_cant": "documents, rows and Go types of inputs combine without bound", "anchors": ["evaluation/miningschema.go:36", "evaluation/miningschema.go:65", "evaluation/tree.go:516", "evaluation/input.go:23", "evaluation/regression.go:107"]}
{"id": "C72", "title": "Rounding errors of float64 answers", "statement": "In IEEE binary64 arithmetic (Go's float64) answers differ from the exact ones only by rounding, with these bounds, u = 2^-53. A finite entry of a sum ensemble that no target rescales comes from finite contributions and differs from their exact sum by at most ((1+u)^n - 1) times the sum of their absolute values; an average likewise with n+1, plus 2^-1075. The linear predictor of a regression differs from the exact one by at most ((1+u)^(n+1) - 1) times the sum of the absolute values of its terms plus (1+u)^n n 2^-1075. Probabilities a leaf derives from record counts, and the shares of a softmax or simplemax classification, lie between 0 and 1 and sum to one up to 3(n+1)u. The errors are real: the order of segments changes a sum, and two shares need not sum to one.", "quantifier": "all documents, rows, map orders, numbers of segments, predictors, labels and tables; all finite float64 values; any exp and atan", "why_tests_cant": "a bound on the error must hold for all of 2^64 values per operand and any number of operands; tests compare a few answers within a tolerance somebody chose", "anchors": ["evaluation/mining.go:151", "evaluation/mining.go:207", "evaluation/regression.go:113", "evaluation/regression.go:191", "evaluation/tree.go:456"]}
{"id": "C73", "title": "The names of fields do not matter", "statement": "Rename the fields of a document one to one, everywhere they occur: in the data dictionary, derived fields, mining fields, predicates, expressions, predictors, output fields and targets. Names with a meaning of their own (the empty name, 'score' and 'probability(...)') are kept. Then the renamed document builds exactly when the document does, or fails with the same error about the renamed field, and answers every renamed row with the renamed answer or the same error, changing the row in the same way. Verify is an exception, because it fills its input under the names of columns.", "quantifier": "all documents (trees with every strategy, regression models, ensembles nested to any depth), all permutations of names that fix the reserved ones, all rows, all map orders, all earlier calls", "why_tests_cant": "Tests try documents with the names they were written with; a name that is compared, hard-coded or used as a key in some branch shows up only for that name.", "anchors": ["evaluation/tree.go:100-128", "evaluation/tree.go:516-609", "evaluation/tree.go:712-758", "evaluation/mining.go:119-257", "evaluation/regression.go:81-205", "evaluation/input.go:126-206", "evaluation/evaluation.go:32-84"]}
{"id": "C74", "title": "The constants written in a document mean the numbers written", "statement": "For every text and data type, the constant the library makes of it is exactly the one the grammar of booleans, integers (optional sign, digits, int64 range) and floating point numbers gives it: decimal or hexadecimal, with underscores between digits, which become the nearest float64, ties to even, or the words nan, inf and infinity in any case; every other text is rejected. Number attributes are read the same way after trimming white space. Consequently an ordering test against a written threshold answers as the comparison with the number as written, except possibly for the one row value that is the rounded threshold; against NaN every ordering test is false, and so is every ordering test of a row whose text is NaN.", "quantifier": "all texts, data types, rows", "why_tests_cant": "unbounded texts, all float64 values", "anchors": ["evaluation/evaluation.go:getRawValue", "evaluation/tree.go:evaluateSimplePredicate", "models/elements.go"]}
{"id": "C75", "title": "What Validate accepts and that it does not change answers", "statement": "Validate of a regression, mining and tree model accepts exactly the stated combinations of function, normalisation or method and output features, and otherwise reports the first condition that fails; it only fills the defaults. A constructed tree or mining model is a fixed point of Validate, and validating a regression model never changes an answer. For regression models acceptance and answering are independent: some refused models answer, and an accepted model can answer only under further conditions.", "quantifier": "all documents, model states and rows", "why_tests_cant": "all documents and rows", "anchors": ["evaluation/regression.go:Validate", "evaluation/mining.go:Validate", "evaluation/tree.go:Validate"]}
{"id": "C76", "title": "Ensembles compose", "statement": "A chain or a selection of the first with one segment and nothing else to do answers exactly as the segment's model. A neutral chain inside a chain can be opened at any place, a neutral selection at the head of a selection too, and over the reals a neutral sum inside a sum, provided it reports the entries the outer sum looks for. Models that cannot be told apart can be exchanged inside an ensemble of any method. A regression that sums sums or averages which report no entry called score answers rescaled zeros whatever they say.", "quantifier": "all documents, data dictionaries, rows, and orders of visiting maps (sets of possible answers are equal)", "why_tests_cant": "equality of the sets of answers over all orders, all rows and all nested models", "anchors": ["evaluation/mining.go:evaluateMultipleModelSum", "evaluation/mining.go:evaluateMultipleModelChain", "evaluation/mining.go:evaluateMultipleModelSelectFirst", "evaluation/mining.go:Compile", "evaluation/mining.go:Evaluate"]}
{"id": "C77", "title": "The text of a number", "statement": "Value.String writes a float64 as the shortest decimal that reads back as that float64: it is the closest of the decimals with as few digits, ends in no zero, takes the even last digit when two are as close, and has an exponent exactly below 1e-04 and from 1e+06 on; a float32 likewise for its 24 bits. The text therefore stands for the same float64 again (also NaN, the infinities and -0), different float64 have different texts, and a document that looks at a field only as a number answers the same for a float64 and for its text. A whole number has the same text as an integer and as a float64 exactly if it is below a million, so a MapValues table whose rows are named by plain integers never finds a float64 of a million or more.", "quantifier": "every float64, every float32, every integer, every MapValues expression and row, every document that looks at the field as a number", "why_tests_cant": "There are 2^64 floats; shortest and round-trip are statements about all decimals, and failures of such printing routines (boundaries at powers of two, ties, subnormals) are famously rare.", "anchors": ["evaluation/miningschema.go:101-111", "evaluation/input.go:126-160"]}
{"id": "C78", "title": "Building models in several goroutines", "statement": "NewModel may be called at the same time for different models of one document: when none of them contains a local transformation there is no data race under any schedule and every call returns what it returns alone; among accepted trees and ensembles this condition is also necessary. One model may be built by several goroutines at once exactly when there is nothing for NewModel to fill in. An append to the shared transformation dictionary may be lost, so that a model is rejected although it is accepted when the models are built one after the other.", "quantifier": "all documents, dictionaries, any number of goroutines, all schedules", "why_tests_cant": "Races and lost updates depend on the schedule; a test sees a few schedules of a few documents.", "anchors": ["evaluation/tree.go:389", "evaluation/tree.go:415", "evaluation/tree.go:676", "evaluation/mining.go:49", "evaluation/mining.go:91", "evaluation/evaluation.go:19"]}
{"id": "C79", "title": "A tree sees a number only among its thresholds", "statement": "Where a document uses a field only in tests (no derived field and no numeric predictor computes with it), rows whose values of the field pass the same tests get the same answer or error. So the answer does not change between two numbers without a constant of a test between or at them, for double, float and integer fields; and as a float64 input varies over all values, NaN and infinities included, at most 2n+2 different answers come out of a document that compares it with n constants. Where the field is computed with, this fails.", "quantifier": "all accepted documents nested to any depth, all rows, all values, map orders; generic float semantics for the tests, IEEE binary64 for between and the count", "why_tests_cant": "the claim is about all 2^64 values of an input between any thresholds of any document", "anchors": ["evaluation/tree.go:516", "evaluation/tree.go:560", "evaluation/miningschema.go:36", "evaluation/miningschema.go:65", "evaluation/input.go:23"]}
{"id": "C80", "title": "The tests a prediction of a tree rests on", "statement": "For every tree, strategy and row the nodes whose tests are made are a fixed list given by a simple rule: below a node whose test is true (with lastPrediction, defaultChild, weightedConfidence and aggregateNodes also unknown), the children in order, up to the first true one by default, up to the first that is not false with nullPrediction, all with the other four. Rows that agree on the fields of these tests get the same answer; changing what stands at or below other nodes does not change it; a node without predicate makes Evaluate panic exactly if it is one of these. No test is made twice, and by default or with nullPrediction a tree with h levels of at most b children makes at most 1+bh tests.", "quantifier": "all accepted tree documents of any size, strategies, rows, map orders; generic float semantics", "why_tests_cant": "which nodes are left out depends on every path of every tree; the claim concerns pairs of rows and pairs of documents", "anchors": ["evaluation/tree.go:130", "evaluation/tree.go:148", "evaluation/tree.go:177", "evaluation/tree.go:225", "evaluation/tree.go:251", "evaluation/tree.go:314"]}
{"id": "C81", "title": "Numbers matter only through the operations on them", "statement": "Whatever stands in for float64 is used by the library only through the arithmetic, comparisons, conversions, parsing and printing it performs. If a map from one kind of numbers to another goes along with these operations, then changing all numbers of a document and of a row by that map changes nothing but the numbers: the document is accepted or rejected with the same error, every evaluation fails with the same error or answers with exactly the changed numbers (the labels, the absent answers, the rows and caches left behind being those of the original), and Verify comes out the same. Products may be left out of the operations for documents that compute none. In particular payloads carried along by NaNs, however the processor propagates them, never reach an answer.", "quantifier": "all documents of any depth, rows, dictionaries, iteration orders that depend on keys only, kinds of numbers and maps between them that go along with the operations", "why_tests_cant": "a statement about all conceivable number systems and all documents; tests run on one processor with one arithmetic", "anchors": ["evaluation/tree.go:69-146", "evaluation/tree.go:177-367", "evaluation/tree.go:441-513", "evaluation/tree.go:712-758", "evaluation/regression.go:65-205", "evaluation/mining.go:119-257", "evaluation/input.go:11-206", "evaluation/evaluation.go:32-84", "evaluation/miningschema.go:24-111"]}
{"id": "C82", "title": "Machines that fuse multiplication and addition", "statement": "Go lets a compiler add an unrounded product (on arm64, ppc64le, s390x, riscv64). For every choice, which may depend on the operands: the same documents are accepted, with the same evaluators; documents that compute no product (no default child penalty, no weighted confidence, no rescale factor, no linear predictor, no derived field that multiplies) answer exactly the same; a machine that never fuses answers as the float64 model; and the linear predictor of a regression table, if finite, still lies within ((1+2^-53)^(n+1) - 1)(|a| + sum |c x|) + (1+2^-53)^n n 2^-1075 of its exact value, so that two machines differ by at most twice as much. Answers do differ: there is a document and a row for which the probability of a class is NaN on a machine that rounds every product and 1 on one that fuses.", "quantifier": "all fusion choices (functions of the operands), documents, rows, tables, iteration orders", "why_tests_cant": "tests run on one machine with one compiler; the bound covers all choices and all finite inputs", "anchors": ["evaluation/regression.go:65-205", "evaluation/tree.go:205-300", "evaluation/mining.go:170-195", "evaluation/input.go:11-206"]}
{"id": "C83", "title": "Memory stays bounded: keys of answers, rows and caches come from the document", "statement": "For every accepted document, nested to any depth, after any sequence of Evaluate calls (also failing ones, in any map order): every key of every answer is one the document lists (the target and probability(label) for a label written in the tree or declared for the target; score; the names of output fields; the fields of targets; for multi-class regression without an output field the empty key), so an answer has at most as many entries as there are different such keys. A row passed to the evaluator again and again keeps all other entries and gains at most one entry for each different key the document may add (replacement fields, local derived fields and, under a model chain, keys of segment answers). The caches of output keys hold, tree by tree, at most one entry for each different label. So nothing grows with use.", "quantifier": "all documents, rows, call sequences, iteration orders, nesting depths", "why_tests_cant": "a leak shows only after many calls with the right rows; the bound is for every sequence of calls", "anchors": ["evaluation/tree.go:712-758", "evaluation/tree.go:81-367", "evaluation/mining.go:119-257", "evaluation/regression.go:81-205", "evaluation/input.go:HandleInput"]}
{"id": "C84", "title": "Ensembles keep the order and the range of their segments", "statement": "In float64 arithmetic with its rounding, for every accepted sum or average ensemble whose rescale factors are not negative: if on a second row no segment adds less than on the first, the ensemble's answer is not less either, unless one of the answers is NaN (so boosted trees that are each monotone in a field form a monotone ensemble). If the segments are regression trees and every label of tree i stands for a number from lo_i to hi_i (with zero in the range if the tree may give no prediction), every answer on every row lies between the float64 answers for all lo_i and for all hi_i, NaN aside. These bounds cannot be replaced by the scores themselves: the float64 average of three trees that all score 0.1 is 0.10000000000000002.", "quantifier": "all ensembles (any number and nesting of segments for the order, trees for the range), rows, iteration orders, including infinities and overflow", "why_tests_cant": "monotonicity and ranges concern all pairs of rows and all roundings of sums of any length", "anchors": ["evaluation/mining.go:151-211", "evaluation/tree.go:712-758"]}
{"id": "C85", "title": "Float64 probabilities nearly sum to one under every strategy", "statement": "The probabilities a classification tree reports in float64 arithmetic are finite, not negative and exceed one by at most E, and their exact sum differs from one by at most E (or none are reported). E is the error eps of the probabilities given in the document plus 3(N+1) units of 2^-53 for N labels; under weightedConfidence each of h levels with at most b children adds 9(b+1) units.", "quantifier": "all data dictionaries, documents meeting NearNode and NearStrategy, all rows, all map orders, all missing value strategies", "why_tests_cant": "The rounding error depends on every count and on the iteration order of Go maps; a test sees one rounding for one document.", "anchors": ["evaluation/tree.go:100-128", "evaluation/tree.go:177-223", "evaluation/tree.go:251-367", "evaluation/tree.go:441-515"]}
{"id": "C86", "title": "What comes back beside an error", "statement": "Evaluate returns a row and an error. Trees and ensembles return nil beside every error, so a row half filled by a regression segment never leaves an ensemble. A regression model returns nil beside a missing term or an unknown function, an empty row beside a wrong number of tables or outputs, and beside an unsupported method an empty row, except in binary classification: there it returns the answer the model would give if its tables ended before the first one with predictors. That row is not empty exactly when one of those tables is for the category of an output. Forgetting the row beside an error gives the evaluation all other properties are about.", "quantifier": "all models, all rows, all map orders, all normalisation methods", "why_tests_cant": "Tests look at the row or at the error, for one document; the claim is about both values at every return statement, through any nesting of ensembles.", "anchors": ["evaluation/regression.go:81-205", "evaluation/mining.go:119-257", "evaluation/tree.go:712-758"]}
{"id": "C87", "title": "The model NewModel returns beside an error, and nil arguments", "statement": "With arguments that are not nil NewModel always returns: an evaluator without an error, or an error. Beside an error the returned interface is nil only if the element is of an unknown kind; for a tree or ensemble that cannot be built it is not nil, and all its methods dereference nil. With a nil dictionary a regression model is built as ever, while trees and ensembles give the validation error or dereference nil. A nil regression model is accepted without an error, and only Compile can be called on the result; in every other case no error means a usable evaluator.", "quantifier": "all dictionaries (nil or not), all elements (nil or not), all rows, all map orders", "why_tests_cant": "The nil pointer inside a non-nil interface shows only in programs that test the model instead of the error, and only for documents that cannot be built.", "anchors": ["evaluation/evaluation.go:12-30", "evaluation/tree.go:369-387", "evaluation/tree.go:676-706", "evaluation/mining.go:26-117", "evaluation/regression.go:20-32"]}
{"id": "C88", "title": "Forests that ascend with a field", "statement": "A regression tree in which, wherever a larger value of the field x may lead from one child to another (or to the node itself, unless a child is always true or two children complement each other), the numbers on that side are not smaller, never scores less for a larger x with all else equal: with the default strategy both rows get a prediction or neither does, and with nullPrediction whenever both do. A sum or average ensemble of such trees with factors that are not negative, no derived field being called x or computed from it, never answers less for a larger x, in float64 arithmetic with its rounding, unless an answer is NaN (with nullPrediction: if the same trees predict on both rows). The condition on the documents is computable.", "quantifier": "all documents, trees of any shape, compound tests nested to any depth, all pairs of rows, all representations of the numbers, all map orders", "why_tests_cant": "Monotonicity relates every pair of rows; a tree and an ensemble have unboundedly many, and rounding could break the order of sums anywhere.", "anchors": ["evaluation/tree.go:130-146", "evaluation/tree.go:516-674", "evaluation/mining.go:151-211"]}
{"id": "C89", "title": "Building and evaluating at the same time from one document", "statement": "NewModel stores the parsed constants into the document (RawPredicateValue) and evaluators read them from there, so building a model again changes memory that evaluators in use read. If no field of the document has two types, then in every execution in which any number of goroutines build the models of one document, again and again, and evaluate whatever has been built, each access to shared memory being a step of its own and the steps being interleaved in any order, every call of Evaluate returns the answer, and leaves the row, of an evaluator built alone; so calls with the same model, row and map order answer the same in all executions. If a field has two types this is false.", "quantifier": "all documents, all numbers of goroutines, all programs of calls, all interleavings of the accesses, all initial constants", "why_tests_cant": "The interleavings are unboundedly many and a race shows itself on few of them; a test observes the schedules that happen to occur.", "anchors": ["evaluation/tree.go:415-439", "evaluation/tree.go:493-606", "evaluation/mining.go:70-117", "evaluation/evaluation.go:19-30"]}
{"id": "C90", "title": "Every call ends after a bounded number of steps of its own", "statement": "In every execution in which goroutines build and evaluate models of one document, whatever the others do in between and whatever constants they leave behind (fields may have two types), a call of NewModel makes at most as many accesses to shared memory as a count on the document says (mining fields of its trees, twice its local transformations, its comparisons, one or two for each model element), and a call of Evaluate at most two for every comparison a prediction can need; and a goroutine inside a call always has a step of its own, so no call waits for another. With no missing value strategy, or nullPrediction, a prediction of a tree goes one way down: at most k*(1+b*d) comparisons for depth d, b children and k comparisons to a test, whatever the number of nodes.", "quantifier": "all documents, rows and map orders, all numbers of goroutines, all interleavings of the accesses, all initial memory contents", "why_tests_cant": "That a call never runs on, waits or tests more than one way down has to hold for all trees and all interference; tests see some trees and the schedules that occur.", "anchors": ["evaluation/tree.go:81-366", "evaluation/tree.go:369-463", "evaluation/tree.go:516-706", "evaluation/mining.go:53-117"]}
{"id": "C91", "title": "The names of nodes do not matter", "statement": "Rename the nodes of all trees of a document one to one, together with the references to default children: the document builds when it did before or fails with the same error, leaves the transformation dictionary alike, and its evaluator, after any calls, cannot be told apart from the original one: on every row the same answers and errors are possible (over the orders of visiting maps), with the same changes to the row. Without weightedConfidence and aggregateNodes the very same answer is given in every order. One to one is needed: with two nodes of one name another default child is taken.", "quantifier": "all documents (trees of all strategies, ensembles, chains, nested), all permutations of names, rows, histories and map orders", "why_tests_cant": "Node ids are keys of maps that are ranged over; that only their being different matters has to hold for all trees, names and orders.", "anchors": ["evaluation/tree.go:230-366", "evaluation/tree.go:516-560", "evaluation/mining.go:99-117"]}
{"id": "C92", "title": "The names of classes do not matter", "statement": "Rename the classes of a document one to one (scores and distributions of its classification trees, declared values of the targets, categories of the regression tables, output values and the names of their probabilities): it builds when it did before or fails with the same error, and its evaluator, after any calls, answers every row alike: the renamed class, the same number under the renamed probability, the same errors and changes to the row; what the one can answer over the orders of visiting maps, the other can. Any renaming that leaves the empty name alone is possible. That is needed (the empty name is answered when no probability exceeds 0), the order cannot always be kept (ties go to the class visited first), and chains are rightly left out (a later segment can read the class).", "quantifier": "all documents of trees, regressions and sum, average and selectFirst ensembles, nested, in which no class is given under the name of something else; all permutations, rows, histories and map orders", "why_tests_cant": "Classes are strings compared, hashed, concatenated and sorted by maps; that nothing but their being different matters has to hold for all names and orders.", "anchors": ["evaluation/tree.go:100-128", "evaluation/tree.go:230-366", "evaluation/tree.go:712-758", "evaluation/regression.go:125-205", "evaluation/mining.go:119-210"]}
{"id": "C93", "title": "Rows are passed by reference", "statement": "With rows as addresses of maps on a heap, Evaluate does what the model with contents says: answer and row have the contents it computes, the answer is nil or a map that did not exist before, and of the older maps only the row is touched, also beside errors and panics. Hence a program may write into answers, empty them, keep them or pass them on as rows: later calls answer what a new evaluator answers on what the row then contains, and a map the program neither writes to nor passes to Evaluate never changes. Verify touches no map of the program.", "quantifier": "all evaluators in any state, heaps, addresses (nil included), map orders; for programs: all sequences of Evaluate, Verify, make, write and delete on an evaluator built by NewModel", "why_tests_cant": "Sharing shows only when a caller changes a map later and calls again; that it never matters is about all programs and all places where a map is made, returned or merged.", "anchors": ["evaluation/tree.go:712-758", "evaluation/mining.go:119-257", "evaluation/regression.go:81-205", "evaluation/input.go:186-206", "evaluation/evaluation.go:52-81"]}
{"id": "C94", "title": "A check of the document rules out run-time errors", "statement": "There is a computable check of a document, given the names of the fields all rows will hold: if it passes, Evaluate returns neither an error nor a panic on any row with these fields, whatever else the row holds and whatever was evaluated before, for trees, regressions and ensembles nested to any depth. The check follows which fields are certain to be present: replaced, derived, and in chains answered by earlier segments. For regressions, and for derived-field expressions without choices, the check is exact: what does not pass fails on some row.", "quantifier": "all documents accepted by NewModel and passing the check, all rows with the named fields, call histories and map orders; exactness: all regressions and field lists, all expressions built from references, constants and functions other than if", "why_tests_cant": "That a document never fails is a statement about all rows; an error needs one row that reaches the one unreadable score, the absent term or the empty distribution.", "anchors": ["evaluation/tree.go:712-758", "evaluation/mining.go:119-257", "evaluation/regression.go:81-205", "evaluation/input.go:11-206"]}
{"id": "C95", "title": "Filling in missing fields does not change a definite answer", "statement": "A test that is known on a row and does not ask whether fields are missing has the same outcome on every row with more fields. Hence a prediction of a nullPrediction tree, an answer of a regression, and under every strategy an answer for which all tests made are known, stand whatever fields are filled in; so do the answers of ensembles nested to any depth in which nothing missing plays a part, and of sums and averages of nullPrediction trees that all answer.", "quantifier": "all documents accepted by NewModel, all rows and all rows with more fields, all call histories and map orders", "why_tests_cant": "The claim compares a row with all its completions, unboundedly many; a wrong treatment of unknown in one connective shows only on a completion that decides the other operand.", "anchors": ["evaluation/tree.go:evaluateSimplePredicate", "evaluation/tree.go:evaluateCompoundPredicate", "evaluation/regression.go:81-205", "evaluation/mining.go:119-257"]}
{"id": "C96", "title": "A tree is a list of rules", "statement": "A tree with the default strategy answers with the first of its rules, children before parents, whose tests all hold, where the rule of a node is the way from the root to it; there is one rule per node. With nullPrediction the first rule that is not false decides: it answers if it holds, and there is no prediction if it is unknown. Hence trees in a document, at any depth of nested ensembles, may be replaced by trees of one level that list their rules: the document is still accepted and gives the same answers.", "quantifier": "all tree documents and all documents accepted by NewModel, all rows, all map orders", "why_tests_cant": "The nested tree and the flat list must agree on every row for trees of every shape; a descent that backtracks, or looks at siblings after entering a child, agrees on most rows.", "anchors": ["evaluation/tree.go:81-147", "evaluation/tree.go:225-250", "evaluation/tree.go:615-675"]}
{"id": "C97", "title": "Temporary derived fields can be inlined", "statement": "Derived fields that only serve as steps on the way to other derived fields can be taken out of a document, at any depth of nested ensembles, by putting their expressions where they are referred to. The resulting document neither computes nor reads any of them; it is accepted exactly if the original is, and rejected with the same error; and it gives the same answers and run-time errors for every row, leaving rows that differ in these fields only. The conditions are checked on the document: no predicate, predictor or MapValues table reads a step, a step always has a value that is stored as it is, and no field it reads is computed anew while it is in use. Each condition is needed.", "quantifier": "all documents, sets of field names, transformation dictionaries, rows (not nil), map orders", "why_tests_cant": "The row is shared and written in place by every derived field and every nested model, so a step may be seen, overwritten or go stale anywhere later; only a proof over all documents covers these interactions.", "anchors": ["evaluation/input.go:HandleInput", "evaluation/input.go:HandleExpression", "evaluation/mining.go:Evaluate", "evaluation/tree.go:Compile"]}
{"id": "C98", "title": "Constant expressions can be computed once", "statement": "In the derived fields of a document, at any depth, every call that reads no field and gives a float64 can be replaced by a constant with the text of that float64, and a conditional whose condition reads no field by the branch it takes: every expression keeps its value, or the error it fails with, in every row; the document is accepted or rejected alike; and answers, errors and rows afterwards are the same bit for bit, also for NaN, the infinities and -0. An expression that reads no field and computes a number becomes a single constant.", "quantifier": "all expressions, all documents over float64, all rows (for documents: not nil), map orders", "why_tests_cant": "It depends on printing and reading back every float64 exactly, and on evaluation order and errors in every context an expression can occur in.", "anchors": ["evaluation/input.go:HandleExpression", "evaluation/input.go:handleApplyExpression", "evaluation/input.go:handleConstantExpression", "evaluation/miningschema.go:String"]}
{"id": "C99", "title": "Finitely many rows test a forest completely", "statement": "For documents that do nothing with their fields but compare them with constants (trees and ensembles of trees, nested to any depth), a finite list of rows is put together from the constants and declared types alone: for each field no value, nil, each constant, a float64 strictly between any two neighbouring constants if there is one, the ends of the range, NaN, each also as a text, and all combinations of these. Every row whatever, with values of any Go type, has one among them on which all such documents give the same answer or error. So what holds of the answers on these rows holds of every answer, and two forests answer alike on all rows exactly if they do on these.", "quantifier": "all documents accepted by NewModel that only compare their fields, each declared with one type; all rows (not nil), map orders", "why_tests_cant": "This is what says which tests suffice; that the list is complete cannot itself be tested.", "anchors": ["evaluation/tree.go:427-613", "evaluation/miningschema.go:36-99", "evaluation/mining.go:Evaluate"]}
{"id": "C100", "title": "A document can be specialised to a region of inputs", "statement": "Let it be known of some fields, none of which the document writes itself, that they have no value, a given value, or a float64 between two bounds. Then the tests this decides may be written as constants, and the children that then make no difference, or come after one that settles the answer, left out. The specialised document is accepted where the document is, leaves the same dictionary, and on every row that is as known gives the same answer or error and does the same to the row. For a comparison with a constant exactly the outcomes are kept that some number between the bounds has; if everything is known at most one child is left at each node under none and nullPrediction; no nodes are added.", "quantifier": "all documents accepted by NewModel over float64 (trees under every strategy, ensembles and chains nested to any depth), all dictionaries, all boxes of known fields, all rows in the box, map orders", "why_tests_cant": "The specialised document is to agree on all rows of the box, and the box has more rows than can be tried; whether a child may go depends on the strategy, the default child and returnNullPrediction.", "anchors": ["evaluation/tree.go:130-424", "evaluation/tree.go:427-613", "evaluation/mining.go:Evaluate"]}
{"id": "C101", "title": "A forest can be merged into one tree", "statement": "Given an accepted ensemble that adds up regression trees (default missing value strategy, every node with a predicate, no derived fields of their own), the ensemble with the one merged tree is accepted, leaves the same dictionary, and on every row gives the same answer, bit for bit in float64, or the same error or panic, and does the same to the row. Below each answering node of a tree the merged tree goes on with the decisions of the next; its leaves hold the text of the rounded sum of the scores found on the way. Further segments that never predict change nothing. Ensembles that average agree too if such segments keep the number of segments.", "quantifier": "all sum and average ensembles of any number of mergeable trees over float64, all dictionaries, targets and outputs, rows, map orders of either evaluation", "why_tests_cant": "The merged tree has a leaf for every combination of leaves of the trees, and floating point sums depend on the order of addition; agreement is needed at all of them, for negative zero, NaN, infinities, unreadable scores and nodes without a prediction as well.", "anchors": ["evaluation/mining.go:sum", "evaluation/mining.go:average", "evaluation/tree.go:130-424", "evaluation/tree.go:Evaluate"]}
{"id": "C102", "title": "Bounds on the answer can be computed for a region of inputs", "statement": "From what is known about each field of a row (nothing, that it is absent, its value, or float64 bounds) a computable analysis of the document derives what is then known about the answer (which entries there are, their values or bounds, and whether there may be no prediction) and about the row after the call. Every row that is as known and on which evaluation does not fail gets an answer, and is left in a state, as computed; numbers are bounded as the rounded float64s they are. Where one value is computed, all rows of the region get it (robustness); where it is computed that there is a prediction, there is one. For trees that go to the first true child, from complete knowledge of a row exactly the answer is computed.", "quantifier": "all documents at any depth (trees under every strategy, regression models, sum, average, chain and selectFirst ensembles, replacements, derived fields), all regions, rows, map orders; exp and atan monotone", "why_tests_cant": "A region holds up to 2^64 values per field; a certificate that no row of it gets another class or a score outside the bounds cannot be had by evaluating rows, and rounding may push a result past a bound computed in exact arithmetic.", "anchors": ["evaluation/tree.go:Evaluate", "evaluation/mining.go:Evaluate", "evaluation/regression.go:Evaluate", "evaluation/input.go:11-206"]}
{"id": "C103", "title": "The texts that are read as a file are those of a grammar", "statement": "A text is read as an element exactly if it stands for that element by a grammar of XML documents (names, references, quoted values, character data, CDATA sections, comments, processing instructions, directives, nested tags), which makes the grammar unambiguous. What precedes the first element (declaration, document type, comments) and what follows it has no effect. On a text the program does what it does on the element the text stands for; on a text that stands for no element it fails, whatever the rows. Any text that writes a document, in whatever layout and spelling, gives that document's answers, and every document with legal names and characters has such a text.", "quantifier": "all texts (sequences of characters), all elements, all documents, all sequences of calls", "why_tests_cant": "Texts are unbounded and every construct can be spelled in infinitely many ways and nested to any depth; a test covers single spellings.", "anchors": ["main/perftest.go:47-86", "models/elements.go:3734-3743", "models/elements.go:1337-1340", "models/elements.go:5971-5996"]}
{"id": "C104", "title": "When the answers of regression models are numbers", "statement": "In float64 arithmetic every link function gives NaN exactly for NaN and otherwise a number that is not negative and (but for exp) at most one, so the answer of a regression model is NaN exactly if its linear score is; the score is finite whenever its n+1 terms are at most 2^e in size with (n+1)*2^e < 2^1024. A two-class answer with a finite intercept is NaN exactly if one of its inputs is. A softmax number is NaN exactly if some score is NaN, or this table's e^score overflows, or the weights of all tables underflow (simplemax likewise): so a score from 710 on, however clear a favourite, is reported as NaN beside noughts, and with all scores at -746 or less everything is NaN; with scores from -700 to 700 and fewer than 2^13 tables the numbers lie between nought and one, sum to one up to rounding, and are in the order of the scores.", "quantifier": "all constructed regression models, all rows and map orders, every exp, atan and 1/pi with the stated properties of Go's (GoMath)", "why_tests_cant": "Tests use moderate scores; NaN appears only at the edges of the exponent range, and an exact characterisation ranges over all scores of all tables.", "anchors": ["evaluation/regression.go:65-79", "evaluation/regression.go:92-123", "evaluation/regression.go:125-159", "evaluation/regression.go:161-205"]}
{"id": "C105", "title": "Which files the program runs", "statement": "The program gets past its search for files exactly if everything below the directory can be read, and otherwise ends at the first thing in the order of paths that cannot. For each name it then runs exactly one file `name.xml`: of all files so named, in whatever directory, the one whose path comes last. It finishes exactly if each of these can be opened, read and answers every call; the answers are those of these files, each once, and the order of the map only changes the order of the answers. Any other end is that of one of these files, and each of their ends is what some order of the map reports. Nothing else in the tree matters.", "quantifier": "all file trees with legal names, all texts, all rows, all orders of the map", "why_tests_cant": "Trees are nested without bound, names may collide across directories, and the order in which a map is visited cannot be controlled from a test.", "anchors": ["main/perftest.go:26-46", "main/perftest.go:48-93"]}
{"id": "C106", "title": "Which documents can be decoded", "statement": "Whether the program can decode a document is decided by the struct tags of the 92 types below PMML alone: it fails exactly if some element it looks at has an attribute or a number that cannot be read into its field, or a child unknown to a hand-written decoder. The twenty-odd decoders modelled one by one agree with this table. Text, the order of elements and attributes, and anything without a field have no influence, at any depth; of twelve kinds of models nothing is read at all. With every element decoded as its type says, written documents are read back and answered without any assumption on the elements the evaluator does not look at.", "quantifier": "all element trees of any depth, all attribute values, all floating-point parsers", "why_tests_cant": "Documents are nested without bound, and there are some 250 attributes and 150 children, each of which may be wrong in a document that is otherwise fine.", "anchors": ["models/elements.go:2070-5996", "models/groups.go:20-324", "models/complexTypes.go:32-41", "main/perftest.go:55-60"]}
{"id": "C107", "title": "What the performance test asks of its files", "statement": "The performance test draws six numbers for each row and n rows for each file, the files taking turns: no number is used twice or left out, and each row holds exactly six fields. It finishes exactly if the directory can be read, each file has a first model that can be built, and that model, asked each of its rows alone, answers. A check computed from the text of the files guarantees this for every sequence of numbers, every number of rows and every order of maps; if all models are regressions the check is exact, so the test finishes for all sequences or for none. With numbers between zero and one all answers lie within bounds computed from the documents.", "quantifier": "all directory trees with legal names, all file texts, all sequences of numbers drawn, all numbers of rows, all map orders", "why_tests_cant": "The program is itself a random test: which rows it sees depends on the numbers drawn, and a document whose rare branch fails passes it for most sequences.", "anchors": ["main/perftest.go:48-94", "evaluation/miningschema.go:16-18"]}
{"id": "C108", "title": "What an error says is so", "statement": "Whatever error or panic ends the evaluation of a constructed model, its reason is in the document or in the caller's row: a field named as missing is read by a regression of the document and absent from the row the caller gave, a text that could not be read is written in the document where such a value is due, and every other kind of error names a feature the document has. Nine kinds of errors and panics never come out of an evaluation, and a missing predicate is only called if a tree of the document has a node without one. The row loses no field. What NewModel complains about is in the document, and what Verify complains about is so: the row of the table exists and the model, newly built, answers it wrongly.", "quantifier": "all documents, all rows, all map orders, all errors", "why_tests_cant": "Tests look at answers; for an error they can compare one message, not show that no document and no row get a message that is untrue.", "anchors": ["evaluation/evaluation.go:19-101", "evaluation/input.go:23-214", "evaluation/mining.go:45-257", "evaluation/regression.go:81-200", "evaluation/tree.go:369-758"]}
{"id": "C109", "title": "The normal form of a file", "statement": "What the XML decoder can produce is known exactly: the documents whose settings are known words or kept as unknown words, whose predicates carry no parsed value, whose table cells are texts and whose exponents fit 64 bits. Each such document made of legal characters has a text, written in one fixed way, that is read as that document; and no other document has a file. A file and the text written for its document make the program end in the same way for all rows, errors included, and two files have the same normal form exactly if they are read as the same document. Every float64 is written so that it is read back.", "quantifier": "all files, all documents, all rows, all map orders", "why_tests_cant": "Tests decode a few files; that nothing else can come out of the decoder, and that nothing the evaluator sees is lost by writing a document down, is about all files.", "anchors": ["models/elements.go:3734-3743", "models/elements.go:3372-3427", "models/groups.go:1-324", "main/perftest.go:47-86"]}
{"id": "C110", "title": "The bytes of a file", "statement": "A file is a sequence of bytes, decoded as utf8.DecodeRune does where encoding/xml looks at characters. The bytes of every text are decoded to that text, and the library objects to no byte exactly if the file is UTF-8 of one text. A file in UTF-8 is read as the element its text stands for. In a file that is read, bytes that belong to no character, and characters XML does not allow, stand only in comments, processing instructions and directives or behind the first element, which is not read; a file without those is UTF-8 as far as it is read. A byte order mark in UTF-8 has no effect; no file in UTF-16 or UTF-32 is read, in either byte order, with a mark or without. Every file that is read as a tidy document has a normal form in UTF-8 on which the program ends in the same way for all rows.", "quantifier": "all files of bytes, all texts, all rows, all map orders", "why_tests_cant": "Tests decode a few files, all of them ASCII; what happens to every other sequence of bytes cannot be enumerated.", "anchors": ["main/perftest.go:47-60"]}
{"id": "C111", "title": "Declarations written down differently", "statement": "What the models of a document do depends on its declarations only through what they say about the things the models ask for: the (last) type of every field in a test, the (last) target of a tree and its declared values, the (last) replacement of every field, whether all outputs are supported, which scores an ensemble has, and the factors and constants of each score in order. Documents that agree in these are rejected with the same error or give models that answer alike on every row, in every order of maps and over every history of calls. So data fields and mining fields of different names, outputs, and targets of different fields may be written in any order, and data fields that occur in no test and are no target may be left out, added or changed. Among fields of the same name, several targets, and the targets of one field the order does matter.", "quantifier": "all documents (trees, regressions, ensembles at any depth), all rewritings of their declarations, all rows, all map orders, all histories, any arithmetic", "why_tests_cant": "A test compares one document with one rewriting; that no order and no unused declaration ever matters is about all pairs of documents.", "anchors": ["evaluation/tree.go:100-128", "evaluation/tree.go:676-706", "evaluation/mining.go:49-117", "evaluation/mining.go:151-197"]}
{"id": "C112", "title": "Derived fields in another order", "statement": "Two derived fields are unrelated if their names differ and neither is computed from the other. Writing the derived fields of any models of a document in another order that keeps every related pair as it was does not change what the document does: it is rejected with the same error or accepted, and its model then gives the same answer and leaves the same row as the original, or both fail. A history of calls is answered by both or by neither, and alike. In particular, derived fields that are all unrelated may be written in any order. Which of several errors is reported does depend on the order, and related fields cannot be exchanged.", "quantifier": "all documents (trees, ensembles at any depth), all such orders, all rows, all map orders, all histories, any arithmetic", "why_tests_cant": "A test compares two orders on some rows; the claim is about all lists of derived fields, all admissible orders and all rows, and the row is changed in place while the fields are computed.", "anchors": ["evaluation/input.go:186-206", "evaluation/tree.go:718-727", "evaluation/mining.go:236-244"]}
{"id": "C113", "title": "What an XML document says", "statement": "The content of a PMML element can be written down without decoding it: of an attribute given several times the last counts, elements of one name are taken in the order of the document, sections given several times are read as one (a tree given in several Node elements becomes one root with all their children), a derived field has its last expression, a node its last predicate, a table row the last cell of each name. Decoding a document succeeds exactly if the table of struct tags says it can be read (C106), and then yields exactly this content, whatever the document looks like; likewise for the bytes of a file. Hence the attributes and the sections of a model may be written in any order that keeps those of one name in order, with any text between them.", "quantifier": "all XML documents (all names, attributes, nesting, repetitions), all files of bytes, any arithmetic", "why_tests_cant": "Tests decode files written by exporters, where every section occurs once; the claim covers all documents, including repeated sections, repeated attributes and several tables.", "anchors": ["models/elements.go:349-423", "models/elements.go:1223-1266", "models/elements.go:1832-1909", "models/elements.go:2408-2435", "models/elements.go:3348-3428", "models/elements.go:3745-3800", "models/elements.go:4502-4546", "models/elements.go:5971-5996", "main/perftest.go:47-62"]}
{"id": "C114", "title": "A document in another order", "statement": "Two items of a PMML document that are of different kinds may change places, at any depth and any number of times, and so may two attributes of different names: the document is decoded to the same document as before, or neither can be decoded, and the program ends in the same way on both. All predicates are of one kind, as are all expressions and all models; every other element is of the kind of its name, and text is a kind of its own. Nothing may be changed inside a constant, whose value is its source text. The same holds for the bytes of two files, and for any sequence of such changes and changes of layout (C62).", "quantifier": "all XML documents, all such orders at any depth, all rows, all map orders, all files of bytes, any arithmetic", "why_tests_cant": "Tests decode documents whose sections stand in the order of the schema; the claim covers every order of every document, and whether an error in one place hides one in another.", "anchors": ["models/elements.go:349-423", "models/elements.go:1223-1266", "models/elements.go:1832-1909", "models/elements.go:3348-3428", "models/elements.go:3745-3800", "models/elements.go:4502-4546", "main/perftest.go:47-86"]}
{"id": "C115", "title": "The error a document is refused with", "statement": "When a PMML document cannot be decoded, the error is the first one in the order of the document that the table of struct tags finds: the attributes of an element before its children, the children in their order. An attribute that cannot be read into its field is reported by its text. An element unknown to a hand-written decoder is entered as if its content belonged to the element around it; an error in that content comes first, otherwise the element around it is reported as not consumed. What is wrong inside an element no evaluator looks at is reported by naming that element. Sections after the error change nothing, and sections before it that can be decoded change nothing. Neither does the error depend on text between elements, on attributes and elements that have no field, on the name of an unknown element or on what follows it. The decoder of hierarchies fails in the same way. The program stops with a decoding error exactly then, and every such error states something true of an element of the document.", "quantifier": "all XML documents at any depth, all errors, all rows, all map orders, any arithmetic", "why_tests_cant": "Tests see one mistake at a time; the claim covers every combination of mistakes at any depth and says which of them is reported.", "anchors": ["models/elements.go:349-423", "models/elements.go:1832-1909", "models/elements.go:3348-3428", "models/elements.go:3745-3800", "models/elements.go:4502-4546", "main/perftest.go:55-60"]}
{"id": "C116", "title": "What a document need not have", "statement": "Of a PMML document only 57 element names and 35 attribute names can matter for what is decoded. Any other element or attribute, and the content of elements described by their attributes alone, may be left out at any depth except inside a constant or a row of a table: a document that can be decoded is then decoded to the same document, and the program ends with the same answers or the same error. Leaving something out never makes a document refused. All of it can be left out at once, and the steps combine with those of C62 and C114.", "quantifier": "all XML documents at any depth, all choices of what is left out, all rows, all map orders, any arithmetic", "why_tests_cant": "Tests strip one known file; the claim covers every extension, statistic, header or unread attribute anywhere in any document.", "anchors": ["models/elements.go:349-423", "models/elements.go:1832-1909", "models/elements.go:3348-3428", "models/elements.go:3745-3800", "models/elements.go:4502-4546", "main/perftest.go:55-60"]}
{"id": "C117", "title": "What answers do not depend on", "statement": "The answers of a document do not depend on its version, on models after the first, on records to verify a model with, on what is said about outliers and invalid values, on exponents, or on the names and predicates of segments: two documents that are the same otherwise give the same answers or the same error, row by row. For files: of an XML document that is not refused only 54 element names and 30 attribute names can matter for an answer, so everything else may be left out at any depth, also verification records, exponents and outlier treatments that are decoded.", "quantifier": "all documents and models of any depth, all XML documents and choices of what is left out, all lists of rows, all map orders, any arithmetic", "why_tests_cant": "A test can compare one file with and without an attribute; the claim is that no document, row or order of maps makes these parts matter.", "anchors": ["evaluation/tree.go:395-412", "evaluation/mining.go:evaluateMultipleModelSelectFirst", "evaluation/mining.go:evaluateMultipleModelSum", "evaluation/mining.go:evaluateMultipleModelChain", "evaluation/regression.go:EvaluateRegression", "main/perftest.go:55-60"]}
{"id": "C118", "title": "What verification does not depend on", "statement": "Whether Verify succeeds, and the error it ends with, does not depend on how precise an output has to be (only on whether a precision is given), on the field names given to input columns, on exponents, outliers and invalid values, on names and predicates of segments, or on verification records inside an ensemble. Two models that are the same otherwise are both refused with the same error, or both built and verified with the same result in every order of maps.", "quantifier": "all models of any depth, all verification records, all dictionaries, all map orders, any arithmetic", "why_tests_cant": "A test compares a few precisions on one file; the claim says no value of the precision attribute, on any model or record, is ever looked at.", "anchors": ["evaluation/evaluation.go:32-84", "models/elements.go:5817-5823"]}
