# Formal model of sumatra/gopmml — design

## What is modelled

The executable core of the repository, `evaluation/*.go`, plus the parts of
`models/*.go` that contain logic (array accessors, factory tables, hand-written
XML decoders).  Every Lean definition cites the file and lines it models.

| Go | Lean module |
|---|---|
| `DataRow`, Go maps, iteration order | `Verif/Model/Basic.lean` |
| float64 (IEEE-754 binary64, RNE) | `Verif/Model/F64.lean` |
| `miningschema.go` (`Value`) | `Verif/Model/Value.lean` |
| document structs of `models/elements.go` | `Verif/Model/Doc.lean` |
| predicates, `compilePredicate` | `Verif/Model/Predicate.lean` |
| `tree.go` | `Verif/Model/Tree.lean` |
| `input.go` | `Verif/Model/Expr.lean` |
| `regression.go` | `Verif/Model/Regression.lean` |
| `mining.go`, `NewModel` | `Verif/Model/Mining.lean` |
| `verifyModel` | `Verif/Model/Verify.lean` |
| `complexTypes.go` | `Verif/Model/ArrayType.lean` |
| XML decoders of `elements.go`, `groups.go` | `Verif/Model/Xml.lean`, `Verif/Model/XmlMore.lean` |
| `main/perftest.go` | `Verif/Model/Main.lean`, `Verif/Model/Walk.lean`, `Verif/Model/Perf.lean`, `Verif/Model/XmlText.lean`, `Verif/Model/Bytes.lean` |
| rows by reference: `Evaluate`, `Verify` on a heap of maps | `Verif/Model/Heap.lean` |
| goroutines sharing `outKeys` | `Verif/Model/Conc.lean` |
| goroutines sharing a row | `Verif/Model/SharedRow.lean` |
| goroutines building models | `Verif/Model/Build.lean` |
| goroutines building and evaluating | `Verif/Model/SharedDoc.lean` |

`Verif/Spec/*` holds small specifications independent of the model's helpers,
`Verif/Proofs/*` helper lemmas, `Verif/Props/*` the property theorems only
(named `C01_…`, with a non-vacuity `example` beside each).

## Modelling decisions

* **Errors and panics.** A Go call yields `ok v`, `err e` or `panic p`
  (`Res α`).  Index out of range, nil map write, failed type assertion and nil
  function call are explicit panics.
* **Floats.** The model is polymorphic in the float type `F` with operations
  `Arith F` and *no laws*: theorems stated for every `F` hold for any float
  semantics, in particular binary64.  The instances used are `F64`, an exact
  model of IEEE-754 binary64 with round-to-nearest-even (every operation rounded, as Go on
  amd64; `Fused` covers compilers that fuse, C82), and `ℝ` ("exact arithmetic") for algebraic laws that rounding breaks.
* **External functions** (`strconv.ParseFloat`, `%v` formatting, `math.Exp`,
  `math.Atan`, `shellwords.Parse`) are parameters; theorems hold for all of them
  or state what is assumed.  `ParseInt`/`ParseBool` are modelled, and for `F64` so are `ParseFloat`
  (full syntax: decimal, hexadecimal, underscores, `nan`, `inf`; only the first five digits of an
  exponent count, as in strconv) and `%v` (shortest digits that read back, `e` form below 1e-04 and from
  1e+06 on).
* **Maps** are extensional finite maps (`Std.ExtTreeMap`); a `range` over a map
  visits an arbitrary permutation chosen by an oracle (`MapOrd`) that may differ
  at every site and every nested model; theorems quantify over oracles.
* **Mutation.** Evaluate mutates the caller's row, the tree's key cache
  (`outKeys`) and compile mutates the shared `TransformationDictionary`; the
  model returns the new row, model and dictionary.
* **Shared constants.** `compilePredicate` stores parsed constants in the
  document, which evaluators built from it alias.  Evaluators carry their constants
  by value; `storeElem` is the document after a build and `EModel.sync` what an older
  evaluator then sees.  Building in several goroutines at once is modelled for its
  accesses to shared memory (`Model/Build.lean`), and together with evaluation and the
  constants stored in predicates in `Model/SharedDoc.lean` (C89).
* **nil.** A nil `DataRow` is a case of its own (reads ok, writes panic); a nil
  node predicate is an explicit case (calling the nil test panics); a nil
  expression is an unsupported expression.  Nil `*models.X` arguments
  (dd, td, model) of NewModel are the subject of C87 and excluded elsewhere.
* **Goroutines** sharing one tree are a small-step state machine over the key
  cache.

## Trusted base

Lean 4.33.0's kernel; axioms at most `propext`, `Classical.choice`, `Quot.sound`
(per theorem: last section).  No `sorry`, no `native_decide`, no axioms of our own.
The reading of the Go code.  Go's compiler, runtime and standard library behave as
documented; float64 arithmetic is binary64 RNE, without fused multiply-add except where C82 is about it
(theorems for every `F` hold with it as well, with `F := Fused fuse`).

## Simplifications

* A Go call that returns an error is modelled as the error alone, without the row
  (`regression.go:97`, `:141`) or the interface value (`evaluation.go:22`) beside it, except
  in `Model/Returns.lean` and `Model/Interface.lean` (C86, C87), which keep both.
* Texts of error messages are not modelled; kinds of errors are (`Err`).
* XML: the decoders of the repository are modelled on element trees; how a text becomes
  a tree is modelled from the documented behaviour of `encoding/xml` (`Model/XmlText.lean`,
  C103; the library's source is not part of the repository).  Names are local names
  (as the decoders compare them), comments and processing instructions are texts without a
  value, character data keeps raw text and value, elements inside a `Constant` are spelled in one
  way.  How bytes become a text is modelled from the documented behaviour of `unicode/utf8`
  (`Model/Bytes.lean`, C110).  The nesting limit (10000) is not modelled; the letters beyond ASCII allowed in names are a parameter.  Hand-written decoders are modelled one by one; structs decoded by
  reflection are modelled by their field tags; elements the evaluator never reads are
  decoded for their errors only: by an arbitrary function (`Reflect`), and in C106 by the
  table of struct tags of all 92 types below `PMML` (`Model/Structs.lean`).
* `shellwords.Parse`, `ParseFloat` and `%v` (except for `F64`), `math.Exp`, `math.Atan` are parameters.
* Goroutines: each call has its own row (except in C70); the key cache is the only shared
  state of Evaluate.  NewModel shares the dictionary and the document (C78); an append to
  the dictionary is one read and one write, stores into the document are recorded without
  their content.  C89 is about evaluating while the same document is rebuilt: there the
  constants are read and written one access at a time, each access is atomic, and rows and
  key caches are not shared.
* `EModel.sync` assumes the later build of the shared document ran to the end.
* C09 (no failed type assertion) is about evaluators whose document is not rebuilt
  with other field types; `C61_two_types` shows what happens otherwise.

Not modelled: the factory table `GetTable`
(`groups.go:315`, which nothing calls); the `String`
helpers of `helpers.go`; the generator behind `rand.Float64()` (its numbers are an arbitrary sequence), profiling and timing of
`main/perftest.go`; performance and memory; evaluation of
other model kinds (NewModel rejects them: that is modelled).

## Findings

Behaviour that a reader of PMML would not expect, each with a theorem that shows it.

* `isNotMissing` on an absent field is unknown instead of false (C02).
* A regression model with normalization `none` cannot be evaluated (`C45_none_fails`);
  exponents are ignored (`C45_exponents_ignored`).
* Binary classification ignores the coefficients (`C48_coefficients_ignored`) and its
  answers need not be probabilities (`C48_not_probabilities`).
* weightedConfidence with a penalty or repeated labels can exceed one
  (`C18_weighted_exceeds_one`); NaN can be reported (`C18_nan_occurs`).
* Recompiling a mining model doubles its segments (C44).
* Verify ignores the value of `precision`: it only tells outputs from inputs (`C118_precision`).
* Outlier and invalid value treatments, exponents and segment predicates never change an answer (C117).
* Concurrent first calls on one tree race on the key cache (C27).
* Calls that share a row race as soon as two of them impute a value or compute a derived
  field (`C70_race`, `C70_writers`).
* Building models of one document at the same time races on the dictionary as soon as one of
  them has a local transformation (`C78_exactly`), and a model may be rejected because its
  own derived field was overwritten (`C78_lost`); building one model twice at the same time
  races on the document (`C78_same`).
* One document field with two types makes an older evaluator panic once the document is
  built again (`C61_two_types`).
* A row cannot be reused if a derived field has the name of an input
  (`C63_reuse_changes`).
* A child whose test is never satisfied still counts under aggregateNodes, because the
  distributions of false children are aggregated too (`C68_needed`).
* Equality tests compare dynamic types: the int 7 does not equal the 7 of a double field
  (`C71_equality_differs`).
* Multiplying all record counts by one factor can change answers by rounding
  (`C67_rounding`).
* The order of the segments of a sum ensemble matters to the last bit (`C72_order`), and the
  shares of record counts need not add up to one (`C72_not_one`).
* The constant of a `float` field keeps double precision: the float32 nearest to 0.1 is not at most
  the constant `0.1` (`C74_float_not_rounded`). A threshold written `nan`, or a row whose text is
  `NaN`, fails every ordering test, complementary ones included (`C74_threshold`, `C74_nan_row`). `Value.Float32` reads no numbers in texts, though
  `Value.Float64` does (`C52_float32_text`).
* `RegressionModel.Validate` refuses every regression function and simplemax, which `Evaluate`
  answers (`C75_refused`), and accepts models that can never answer (`C75_accepted`).
* Verify fills its input under the names of columns instead of fields
  (`C73_verify_columns`).
* A regression that sums ensembles which are sums or averages themselves looks only for entries called
  "score", while they report the names of their targets: it answers rescaled zeros (`C76_nested_lost`).
* MapValues looks a float64 up by its `%v` text, which from a million on has an exponent: a table of integer
  codes finds the int 1000000 but not the float64 1000000 (`C77_codes`, `C77_map_large`).
* A binary classification that cannot be evaluated may return a row with a probability of one beside its
  error (`C86_half_filled`). For a tree or ensemble that cannot be built NewModel returns a model that is
  not nil, but a nil pointer (`C87_not_nil`); a nil regression model is accepted (`C87_nil_element`).
* Softmax does not subtract the largest score: a score from 710 on, however clear a favourite, is reported as NaN
  (`C104_overflow`), and if all scores are at most -746 everything is (`C104_underflow`). Simplemax scores that
  cancel are reported as infinite (`C104_cancelled`).
* Of two files with one name in different directories the program runs one and does not mention the other
  (`C105_nothing_else`).
* `standardDeviation` of `NumericInfo` is a child element of the Go type; as the attribute PMML has it is ignored.
  Of twelve kinds of models nothing is decoded but extensions (`C106_unread`), and an `Extension` inside an
  `InlineTable`, a `Segment` or `PMML` itself makes the document undecodable (`C106_fails`).

## Per property

Kept current with MANIFEST.json.

| id | property | how |
|---|---|---|
| C01 | Ordering predicates compare exactly as declared | `evalSimple` after `compilePredicate`; case analysis; the stored constant has the type's representation. |
| C02 | Absent fields make simple predicates unknown | case analysis on `evalSimple`; negation witness for isNotMissing. |
| C03 | Compound predicates are three-valued logic | denotational Kleene spec on predicate trees; structural induction (mutual on lists). |
| C04 | Operand order of and/or/xor is irrelevant | counting lemma under `List.Perm`. |
| C05 | Tree tests read only the fields they mention | induction over predicates and trees with a `mentions` set. |
| C06 | Threshold splits partition the numeric domain | F64 / Int order lemmas on top of C01. |
| C07 | Equality predicates are exact on dynamic type and value | case analysis on dynamic types. |
| C08 | Tree construction accepts exactly the well-formed trees | iff by induction over trees with an independent well-formedness predicate. |
| C09 | Predictions of constructed trees never hit a type-assertion panic | typing invariant on compiled predicates, induction over all five strategies. |
| C10 | Validate is idempotent and only fills defaults | pure function equation. |
| C11 | Recompiling a tree does not change its predictions | last-wins lookup of appended derived fields; induction on number of recompilations. |
| C12 | Default tree strategy follows the first true child | inductive path relation, sound and complete. |
| C13 | nullPrediction never predicts through an unknown | inductive descent relation, sound and complete. |
| C14 | lastPrediction stops at the last fully known node | recursive specification + provenance invariant. |
| C15 | defaultChild descends to the default child with a penalty | recursive specification. |
| C16 | weightedConfidence is the record-count weighted mean of live children | fold over oracle order; equality to `Finset`/list sum over ℝ; witness for duplicate ids. |
| C17 | aggregateNodes reports relative record counts | fold invariant; share formula. |
| C18 | Reported probabilities lie in [0,1] in float64 arithmetic | monotone rounding lemmas of F64. |
| C19 | Reported probabilities sum to one | list sums over ℝ. |
| C20 | The predicted class has maximal probability | fold invariant for strict maximum; order lemmas of F64. |
| C21 | Classification output has exactly the target and one probability per label | key set equation through the cached fold. |
| C22 | Regression trees output exactly the parsed score | direct; panic witness. |
| C23 | No label is ever invented | provenance invariant through all strategies. |
| C24 | All missing-value strategies agree when nothing is missing | induction over trees. |
| C25 | Predictions do not depend on Go's map iteration order | oracle independence by induction over nested models; permutation invariance of folds. |
| C26 | Predictions do not depend on call history | cache invariant; erasure theorem `evaluate = evaluatePure`; induction over histories. |
| C27 | Concurrent Evaluate on a warmed-up tree writes no shared state | small-step interleaving model; invariant over all schedules; race witness. |
| C28 | Life-cycle errors come first and touch nothing | direct. |
| C29 | Derived fields are computed in order and visible to later ones | equation with an independent left-to-right spec. |
| C30 | Arithmetic expressions denote arithmetic | denotation function, induction on expressions. |
| C31 | if evaluates only the taken branch | direct. |
| C32 | isMissing and isNotMissing are complementary | direct. |
| C33 | MapValues applies the last matching row | last-match spec by list induction. |
| C34 | Ill-formed expressions are errors | no panic by induction; error equations. |
| C35 | Expressions read only the fields they mention | induction. |
| C36 | multipleModelMethod sum adds segment scores | fold over segments, oracle independence of the inner range. |
| C37 | average is the sum divided by the number of segments | on top of C36; bounds over ℝ. |
| C38 | selectFirst returns the first segment's answer | direct; witness. |
| C39 | modelChain feeds outputs forward | recursive spec. |
| C40 | Missing value replacement fills exactly the missing fields | pointwise spec, oracle independence. |
| C41 | Evaluate changes only replacement, derived and chained fields of the input row | frame induction over nested models. |
| C42 | Segment errors propagate | induction over segments. |
| C43 | Mining model construction accepts exactly supported documents | iff by induction over nested documents. |
| C44 | Recompiling a mining model is harmless | negation witness + exact effect by induction. |
| C45 | Regression formula | direct fold equation. |
| C46 | Missing regression terms are errors | induction over predictors/tables. |
| C47 | Softmax outputs form a probability distribution | ℝ sums; F64 monotonicity. |
| C48 | Binary classification probabilities are complementary | direct over ℝ and F64. |
| C49 | Link functions have the right range and are monotone | Mathlib analysis lemmas; F64 monotonicity. |
| C50 | Regression evaluation is pure | direct. |
| C51 | Integer views preserve in-range integers and wrap otherwise | case analysis, two's complement. |
| C52 | Float and bool views are total and faithful | case analysis. |
| C53 | Verify accepts only matching models | soundness and completeness of the nested loops, any order. |
| C54 | Verify does not disturb the model | via C26. |
| C55 | Array accessors are type safe, idempotent and cached | state machine with induction over call sequences. |
| C56 | Decoding a tree node keeps every child in document order | decoder over XML trees; round trip by mutual induction. |
| C57 | Decoding rejects unknown child elements in hand-written decoders | decoder failure lemma. |
| C58 | A written document is read back exactly | canonical writer, decoders run on its output; mutual induction over documents. |
| C59 | Constructed models panic only in two named ways | induction over constructed models (`newModel_ind`); both panics have witnesses. |
| C60 | Models read only the fields they mention | `Mentioned` spec over documents; induction over constructed models. |
| C61 | Building a document again is repeatable and disturbs no earlier evaluator | document constants as shared state (`storeElem`, `EModel.sync`); mutual induction over documents; witness when a field has two types. |
| C62 | The layout of a document does not matter | relation `Relay` (text between elements, attribute order, unread attributes, spelling of cells) preserved by every decoder; attribute handlers shown to commute. |
| C63 | Only live fields matter; rows can be reused | backwards liveness of a document (`Spec/Live.lean`); induction over construction carrying agreement on the fields still needed. |
| C64 | Alternate and ChildParent decode exactly the documents their loops know | token loop as in C57; iff by induction over attributes and children. |
| C65 | Regression answers are monotone in every input | Float64 lemmas: add, mul by a constant, neg and 1/x are monotone through exact rounding and infinities; induction over the predictors; `MonotoneTrans` is the only requirement on exp/atan and has an instance |
| C66 | Segments that do not disturb each other can be evaluated in any order | Liveness (C63) and the frame theorem (C41) give row agreement segment by segment; rebuilding under a common dictionary (C61) identifies the evaluators of both orders; list permutation lemmas for the sum |
| C67 | Record counts matter only as shares | a relation between documents that differ in record counts, preserved by compilation and by all six strategies (mutual induction); shares scale out over the reals; counterexample in binary64 |
| C68 | Simplified tests and children never chosen | induction over tree and document with one relation on compiled nodes; per strategy the answers depend only on results that are not false (and on the default child) |
| C69 | From a document to answers | composition: read-back (C58), history independence (C26) by induction over the calls, layout (C62) |
| C70 | Goroutines that share a row | calls as programs over a shared row, shown equal to evaluate when run alone; invariant over all schedules; race witness by driving each call to its first write. |
| C71 | The form of an input | relational invariant: rows related field by field up to a form; every reader of the row shown blind to it; induction over the document with the types in scope. |
| C72 | Rounding errors of float64 answers | half an ulp of the result against the result (relative above the subnormals, exact below them for sums); the standard error recurrence by induction over the terms; then C36, C37, C45, C46 and C12 carry it to documents. |
| C73 | The names of fields do not matter | simulation between a document and its renamed copy, through construction, all strategies and all ensemble methods; two concrete counterexamples for `score` and for Verify |
| C75 | What Validate accepts and that it does not change answers | case analysis of the three functions; construction lemmas for the fixed point; C46 for the conditions under which an accepted model can answer. |
| C76 | Ensembles compose | each method's set of possible answers is characterised as a relation (both directions, by gluing orders of visiting); flattening is an induction on the runs; exchange is a simulation of the loops over the segments. |
| C74 | The constants written in a document mean the numbers written | a grammar with values, proved equivalent to the parsers by inversion on signs, prefix, digits, point, exponent and underscores; rounding proved to be the unique nearest number with ties to even from multiples of the last place. |
| C77 | The text of a number | specification of the shortest decimal by nearest numbers (no algorithm), layout as a grammar; proved of strconv's digit-by-digit loop via the gap between neighbouring floats (17 digits suffice), monotone rounding (bracketing candidates) and the grammar of C74 |
| C78 | Building models in several goroutines | constructors as programs over the dictionary and the document, small-step interleaving; invariant over all schedules, explicit schedules for the races and the lost update. |
| C79 | A tree sees a number only among its thresholds | instance of the C71 invariant with the form 'outcome of these tests'; order of binary64; counting argument. |
| C80 | The tests a prediction of a tree rests on | a relation between compiled trees that constrains only reached nodes, preserved by all six evaluators (induction on the tree); a verdict lemma for panics. |
| C81 | Numbers matter only through the operations on them | Proofs/Numbers.lean and Proofs/NumbersModel.lean: every function of the model commutes with the change of numbers, by induction over expressions, predicates, nodes, tables and nested segments. |
| C82 | Machines that fuse multiplication and addition | Model/Fused.lean runs the same model with numbers that remember their factors; Proofs/Fused.lean bounds one fused step and, by induction, the linear combination; exact agreement comes from C81. |
| C83 | Memory stays bounded: keys of answers, rows and caches come from the document | An invariant `Fits` between document and evaluator is established by construction and kept by every call; labels of tree answers by structural induction over all six strategies; rows by the frame theorem C41. |
| C84 | Ensembles keep the order and the range of their segments | `Up` (not above unless NaN) is preserved by float64 addition, multiplication by a non-negative and division by at least one; induction over the segments; labels of tree answers from C83. |
| C85 | Float64 probabilities nearly sum to one under every strategy | Induction over the tree with an invariant on the exact sum of the float64 probabilities: shares of a total, exact sums of whole counts, and one level of weighted mixing, whose float64 products and sums are compared with the exact ones. |
| C86 | What comes back beside an error | A second evaluation that keeps both returned values, early returns as exceptions; simulation by mutual induction over models and segments; induction over tables for the rows. |
| C87 | The model NewModel returns beside an error, and nil arguments | A model of interface values with nil pointers in them; mutual induction over documents for the absence of panics; case analysis connecting it with newModel. |
| C88 | Forests that ascend with a field | Three-valued induction over predicates and first-true paths, C12/C13 for constructed trees, C84 for the rounded sums and the rescaling; a computable check proved sound. |
| C89 | Building and evaluating at the same time from one document | Every call is a program of single accesses; rely/guarantee invariant (every store writes the constant that belongs there, an evaluator's places are in place once it is built) by induction over executions. |
| C90 | Every call ends after a bounded number of steps of its own | Budgets: a program of accesses ends with n whatever it reads (Lasts), by induction on documents and compiled trees; carried through executions as an invariant. |
| C91 | The names of nodes do not matter | For every order of visiting the maps of the one evaluator an order for the other is constructed, by induction on the tree; the ensembles by the lemma of C76 on segments that cannot be told apart. |
| C92 | The names of classes do not matter | As for C91, with the maps keyed by classes moved along; the way back by the inverse renaming. |
| C93 | Rows are passed by reference | A second model of Evaluate and Verify on a heap of maps (Model/Heap), every make, read and write of a row one by one; it refines the model with contents by induction over evaluators, with the answer always the newest map while it is written. |
| C94 | A check of the document rules out run-time errors | A check defined on the document alone (Spec/Safe); soundness by induction over constructed models with the invariant that the row holds the certain fields; completeness by a row that holds just the given fields, and by induction over expressions. |
| C95 | Filling in missing fields does not change a definite answer | Monotonicity of three-valued logic in the order unknown below known, by induction over predicates; the tests reached are then the same on both rows (C80); induction over constructed models with the invariant that one row has all the fields of the other. |
| C96 | A tree is a list of rules | Mutual induction over nodes and lists of nodes: the first rule with value true (or not false) below a node is the node at which the descent ends; the conjunction of tests is shown to have the value of the rule; C08 gives acceptance. |
| C97 | Temporary derived fields can be inlined | Substitution lemma for expressions under the invariant that the original row holds the values of the substituted expressions; the resulting relation on lists of derived fields (same fields and types outside D) is lifted through construction and evaluation of nested models by a simulation of two models on rows that agree outside D. |
| C98 | Constant expressions can be computed once | Induction over expressions, with the frame property C35 for closed expressions and the round trip C77 for the text; lifted to documents by the relation on derived fields of C97 with no fields left out. |
| C99 | Finitely many rows test a forest completely | Two rows whose fields pass the same tests get the same answer (C79), and unmentioned fields do not matter (C60). Every value passes the same tests as a sample value: between two neighbouring constants with a float64 between them, rounding their middle gives one (nearest rounding, C74), and the text of a float64 reads back as that number (C77). |
| C100 | A document can be specialised to a region of inputs | The set of outcomes a compound test may have is computed from those of its operands, and is sound for three-valued logic. The relation between simplified compiled trees (C68) is taken relative to a set of rows, with a case for children after one that settles the answer (C80). The box is kept by imputation, derived fields, segments and chained outputs, because none of these write a known field (C41). |
| C101 | A forest can be merged into one tree | C12 says where the first-true-child walk ends. By induction over the trees, with the sum so far as accumulator, the walk in the merged tree ends where the walks in the trees lead, and each tree that fails stops both. The text of a float64 is read back as the same float64 (C77), and a sum that starts from +0 is never -0, so adding it to 0 once more changes nothing. |
| C102 | Bounds on the answer can be computed for a region of inputs | Float64 addition, multiplication and division are correctly rounded, so they are monotone, and extreme values are taken at the corners of a box; bounds that are not finite are given up, so no NaN arises inside. Trees are first specialised to the region (C100), then C12, C13 and C14 say which nodes can answer; other strategies use the labels of the tree (C22, C23). Link functions are monotone (C65). Documents by mutual induction with C36 to C39, passing the region from segment to segment. |
| C103 | The texts that are read as a file are those of a grammar | Each scanner of encoding/xml is shown equivalent to its rule of the grammar, both directions, by induction on the text with the scanner's state (the two characters before, the quote, the bracket depth) as invariant; the tree reader by strong induction on the fuel with the stack of open elements. Writing is proved correct by mutual induction on the tree; with C58, C62 (layout, now also the spelling of cells) and C69 this reaches from the text to the answers. |
| C104 | When the answers of regression models are numbers | A quotient is NaN only as ∞/∞ or 0/0; sums of weights that are not negative dominate each weight, so they are infinite beside an infinite weight and nought only if all weights are. Rounding does not leave a range that ends at multiples m*2^e with m up to 2^53, by which sums of bounded terms stay finite. `GoMath` lists the facts about exp and atan used and has an instance |
| C105 | Which files the program runs | The walk of a tree is strictly increasing in the order of paths (induction over the tree, sorted entries with different names); `path.Ext` of a joined path is `.xml` exactly if its last name ends so, and the key is what stands before; the last of an increasing list under a key is the greatest |
| C106 | Which documents can be decoded | Each decoder succeeds exactly as its row of the table says (loop lemmas; mutual induction over the tree for predicates, nodes, expressions and segments); the table's verdict holds exactly if no reached element offends (mutual induction) |
| C107 | What the performance test asks of its files | The loop over the files with a running count is the loop of C105 with rows given by the place of the path in the map order (induction over the files); then C105, C94 and C102 |
| C108 | What an error says is so | An inductive list of reasons, stated on documents; induction over the document shows each constructed model honest: it removes no field of the row and each of its errors has a reason for the row it was given, so a reason found in the middle of an ensemble holds for the caller's row; a tree that lacks predicates answers like the one with True in their place wherever none of them is reached (C80) |
| C109 | The normal form of a file | An invariant carried through every decoder gives what a decoded document looks like; a writer is shown to produce only well-formed markup for such documents; with the round trip of C58, the exact reader of C103 and the layout theorem C62 the normal form is read back |
| C110 | The bytes of a file | Arithmetic of the ranges of utf8.DecodeRune in both directions; a byte of ASCII parts the decoding on its two sides, so the end of the first element is a place in the bytes; induction over the grammar of C103 finds every foreign character inside what is skipped |
| C111 | Declarations written down differently | Induction over documents; the maps built from the declarations are equal because every lookup is; nodes use the data dictionary only for their own distribution; permutations with distinct names have equal selections by name |
| C112 | Derived fields in another order | Every admissible order is reached by exchanging unrelated neighbours (induction on the list, each field brought to the front); one exchange keeps success and the final row because an expression reads only its own fields; induction over documents for the models |
| C113 | What an XML document says | Each decoding loop is shown to compute a function of the remaining elements that is given by the specification (one generic lemma per kind of loop, mutual induction over nodes, predicates, expressions and ensembles), combined with C106 for success |
| C114 | A document in another order | From C113: success and content are given without decoding, and each part of the content is collected item by item from items of one kind (one generic lemma, induction on the rearrangement, families of functions for the mutually recursive parts) |
| C115 | The error a document is refused with | A function over the table that finds the first error, and one equation for every decoder: the error of the decoder is the error of the table for its type (two generic loops, mutual induction over the token loops that recurse); what an error says by induction over the same function |
| C116 | What a document need not have | By C113 a document is what it says if its types can be read; both sides by induction over what is left out: every part of the content is gathered from items of listed names, and being readable is a condition on each item and attribute alone |
| C117 | What answers do not depend on | A map that erases these parts commutes with construction, with evaluation and with the state an evaluation leaves, by induction over the hierarchy of models; for files by C113 the erased documents of a file and of what is left of it are the same |
| C118 | What verification does not depend on | The maps built from the records are determined by the columns, by which of them have a precision, and by the names of outputs; the loop over the rows is followed by induction on two evaluators that agree after the erasure of C117 |

## Axioms per theorem

As printed by `#print axioms` for every theorem of MANIFEST.json (names without
`Gopmml.Props.`).  No theorem depends on anything else.

* **`propext`** (7): C20_best_is_maximal, C51_others, C52_bool, C52_string, C74_bool, C80_once, C81_orders.
* **`Quot.sound`, `propext`** (5): C14_answer_is_a_nodes_own, C51_fits, C52_float32, C52_float64, C96_nodes.
* **`Classical.choice`, `Quot.sound`, `propext`** (501): C01_ordering_float, C01_ordering_int, C01_ordering_other, C02_absent, C02_isMissing_numeric_needs_constant, C02_isNotMissing_absent_not_false, C02_present, C03_kleene, C03_nested_constants_violate, C04_operand_order, C04_surrogate_depends_on_order, C05_predicate_frame, C05_tree_frame, C05_tree_frame_nil, C06_split_float, C06_split_int, C07_equal, C07_notEqual, C07_plain_int_never_equal, C08_construction, C09_descent_never_panics, C09_nil_predicate_panics, C100_between, C100_path, C100_size, C100_specialised, C101_merged, C102_bounds, C102_exact, C102_predicts, C102_robust, C102_within, C103_any_text, C103_every_document, C103_malformed, C103_prolog, C103_reads_exactly, C103_rest_unread, C103_run, C103_unambiguous, C103_written, C104_binary, C104_cancelled, C104_linear, C104_link, C104_ordinary, C104_overflow, C104_regression, C104_simplemax, C104_softmax, C104_underflow, C105_answers, C105_blocked, C105_crashes, C105_files, C105_finishes, C105_last, C105_nothing_else, C105_order, C106_answers, C106_edits, C106_every_document, C106_fails, C106_hierarchies, C106_program, C106_roundtrip, C106_table, C106_unread, C107_answers, C107_bounds, C107_check, C107_checked, C107_finishes, C107_regressions, C107_rows, C107_turns, C107_used, C108_construction, C108_evaluation, C108_faultless, C108_never, C108_no_missing, C108_no_predicate, C108_row_keeps, C108_verify, C109_canonical, C109_decoded, C109_files, C109_float64, C109_numbers, C109_one, C109_same, C109_written, C10_validate, C110_foreign, C110_mark, C110_normal, C110_plain, C110_reads, C110_run, C110_start, C110_utf8, C110_wellFormed, C110_wide, C110_wrong_bytes, C111_order, C111_pruned, C111_redeclared, C111_unused, C112_any_order, C112_documents, C112_fields, C112_histories, C113_cells, C113_content, C113_file, C113_model, C113_rearranged, C113_sections, C114_documents, C114_files, C114_run, C114_together, C115_edits, C115_first, C115_hierarchies, C115_later, C115_program, C115_says, C116_bare, C116_documents, C116_files, C116_refused, C116_run, C116_same, C116_together, C117_bare, C117_document, C117_files, C117_models, C117_program, C117_run, C117_same, C118_precision, C118_verify, C11_predictions, C11_recompile, C12_first_true_child, C13_null_prediction, C14_last_prediction, C14_rules, C15_default_child, C15_rules, C16_absent_ids_drop_children, C16_distinct_ids, C16_weighted_confidence, C17_aggregate_nodes, C17_false_children_are_counted, C18_aggregate, C18_evaluate, C18_nan_occurs, C18_penalty, C18_record_counts, C18_weighted_exceeds_one, C19_aggregate, C19_evaluate, C19_given, C19_one_hot, C19_record_counts, C19_weighted, C20_argmax, C20_float64, C21_output_keys, C22_continuous_target_panics, C22_regression, C23_no_invented_labels, C24_empty_distribution_differs, C24_strategies_agree, C25_exact, C25_order, C25_order_document, C25_regression_depends_on_order, C25_tie_depends_on_order, C26_history, C27_cold, C27_cold_tree, C27_program, C27_progress, C27_right, C27_store, C27_warm, C27_warm_tree, C28_constructed_ready, C28_mining_not_compiled, C28_mining_not_validated, C28_tree_not_compiled, C28_tree_not_validated, C29_ensemble, C29_errors, C29_first_error, C29_frame, C29_nil_row_panics, C29_step, C29_tree, C30_arithmetic, C30_arithmetic_unique, C31_if_error, C31_if_not_true, C31_if_true, C31_if_untaken, C32_absent_field, C32_missing, C33_absent_is_nil_text, C33_column_names_are_fixed, C33_map_values, C34_errors, C34_no_panic, C35_expression_frame, C36_sum, C37_average, C37_average_vs_sum, C37_between, C38_predicates_ignored, C38_selectFirst, C39_chain, C39_empty, C40_impute, C40_nil_row, C40_row, C41_document, C41_frame, C41_regression, C42_chain, C42_first_failure, C42_preparation, C42_sum_average, C43_construction, C44_copies, C44_exact_multiple, C44_not_harmless, C44_recompile, C44_sum_effect, C45_counts, C45_exact, C45_exponents_ignored, C45_none_fails, C45_regression, C46_binary, C46_binary_unsupported, C46_firstMissing, C46_multiclass, C47_float, C47_shift, C47_softmax, C48_binary, C48_coefficients_ignored, C48_complementary, C48_not_probabilities, C49_answers, C49_float, C49_link, C50_no_panic, C50_pure, C51_range, C51_wraps, C52_collision, C52_exact, C52_float32_nearest, C52_float32_text, C52_monotone, C53_close, C53_nan, C53_negative, C53_negative_float, C53_negative_rejected, C53_none, C53_order, C53_verify, C54_verify, C55_alias, C55_floats, C55_floats_stable, C55_ints, C55_ints_stable, C55_strings, C55_strings_failure, C55_strings_stable, C55_wrong_type, C56_compound, C56_constant, C56_distribution, C56_node, C56_predicate_roundtrip, C56_roundtrip, C56_set, C56_simple, C57_apply, C57_compound, C57_derived, C57_document, C57_function, C57_node, C57_pmml, C57_segment, C57_table, C57_unknown, C58_roundtrip, C59_no_panic, C59_panics, C60_model_frame, C61_rebuild, C61_recompile, C61_two_types, C62_layout, C62_node, C63_live, C63_reuse, C63_reuse_changes, C64_alternate, C64_alternate_unknown, C64_childParent, C64_distribution, C65_answers, C65_exact, C65_linear, C65_link, C66_average, C66_disturbing, C66_order, C66_rounding, C66_sum, C67_ignored, C67_rounding, C67_scaled, C68_needed, C68_simplified, C68_tests, C69_answers, C69_layout, C69_rejected, C70_program, C70_race, C70_safe, C70_writers, C71_equality_differs, C71_forms, C71_number, C72_average, C72_multiclass, C72_not_one, C72_order, C72_probabilities, C72_regression, C72_sum, C73_construction, C73_rename, C73_row, C73_score_reserved, C73_verify_columns, C74_attribute, C74_constant, C74_float_not_rounded, C74_int, C74_integer_threshold, C74_nan_row, C74_threshold, C74_unique, C74_view, C75_accepted, C75_again, C75_mining, C75_refused, C75_regression, C75_regression_same, C75_tree, C76_chain, C76_inside, C76_nested_lost, C76_one, C76_select, C76_sum, C77_codes, C77_injective, C77_large, C77_map_apart, C77_map_large, C77_roundtrip, C77_rows, C77_whole, C77_written, C77_written32, C78_alone, C78_dictionary, C78_exactly, C78_lost, C78_race, C78_same, C78_separate, C79_between, C79_between_int, C79_computed, C79_few, C79_same_side, C79_tests, C80_cost, C80_exactly, C80_rows, C80_untested, C81_answers, C81_construction, C81_evaluators, C81_labels, C81_payloads, C81_verify, C82_apart, C82_cases, C82_construction, C82_difference, C82_differs, C82_factors, C82_linear, C82_never, C82_once, C82_plain, C82_regression, C82_sum, C83_answers, C83_cache, C83_row, C83_row_size, C84_average_outside, C84_order, C84_range, C85_evaluate, C85_exceeds, C86_collapse, C86_half_filled, C86_nil_beside, C86_regression, C87_agrees, C87_nil_dictionary, C87_nil_element, C87_not_nil, C87_usable, C88_check, C88_forest, C88_null_prediction_falls, C88_same_trees, C88_tree, C88_unordered_falls, C89_alone, C89_any_execution, C89_evaluators, C89_repeatable, C89_serial, C89_two_types, C90_alone, C90_bounded, C90_never_blocked, C90_one_way, C91_answers, C91_construction, C91_one_to_one, C91_same, C92_answers, C92_chain, C92_construction, C92_empty, C92_names, C92_other_order, C92_probabilities, C92_same, C93_by_reference, C93_kept, C93_program, C93_verify, C94_certain, C94_expression_exact, C94_never_fails, C94_regression, C94_regression_exact, C95_ensemble, C95_model, C95_null, C95_regression, C95_test, C95_tree, C96_flattened, C96_null, C96_rules, C97_construction, C97_gone, C97_inline, C98_constant, C98_construction, C98_document, C98_expression, C99_all, C99_cover, C99_decided, C99_equal.
