# A Lean 4 model of larch's computational core

Source: `/repo` (jpn--/larch at the pinned commit), read as text; nothing was run.
Lean project: `lean/`, modules under `lean/Verif/`.

## Layout

Each area has up to three kinds of file:

* `Verif/Model/*.lean`  – the model: definitions mirroring the Python/Cython code branch by branch.
  Every definition carries a comment with the file and lines it models and what it simplifies.
* `Verif/Lemmas/*.lean` – helper lemmas, of no interest in themselves.
* `Verif/Props/*.lean`  – the property theorems (named `Cnn_…`), their small stand-alone
  specification definitions, and `example`s showing that the hypotheses are met by concrete,
  non-trivial cases.  Where the real code violates the property the negation is proved with a
  concrete witness (`Cnn_…_fails`), next to the strongest positive statement (`…_partial`).

## Trusted base

* Lean 4.33 kernel, and the axioms `propext`, `Classical.choice`, `Quot.sound` (the only ones any
  property theorem depends on; checked by `vcheck`).
* My reading of the code.  The code is not executed; each definition cites what it models.
* Numbers.  Floating point is modelled by exact real numbers extended, in the kernel model, with the IEEE special
  values that the code uses on purpose (`-inf` for unavailable, `+inf`, `nan`), with their IEEE
  rules.  Rounding, overflow, underflow and the
  licence that `fastmath=True` gives to the compiler are NOT modelled.  Integer arrays are `Nat`/`Int` (no wrap-around).
* numpy / pandas / xarray / networkx / numba / Cython primitives (`numpy.unique`, `DataFrame.loc`,
  `DiGraph.add_edge`, `guvectorize` broadcasting over cases, `prange` …) are modelled by their documented
  behaviour; each use is listed in the comment at the definition.
* Threads: `prange`/`guvectorize(target='parallel')` are modelled as a sequential loop over cases;
  each case writes only its own output row, which is the reason this is sound.

## Per property plan

Status of each item is in `MANIFEST.json`.

* **C01–C07** (`Model/Kernel`): the whole of `_numba_utility_to_loglike` as folds over
  edge arrays, on extended reals; a predicate `WF` describes the slot arrays of a tree (proved of the output of the
  graph model, C15).  Closed forms by loop induction, then: probability by telescoping over edges; log likelihood by the same
  telescoping; gradient by `HasDerivAt` through the logsum recursion.  Expected violations: idce rows flagged unavailable are counted in
  the denominator; gradient when a nest and its ancestor share a logsum parameter; logsum parameter held fast.
* **C08, C09**: the three utility kernels as folds; equality with an independent sum over terms; sparse
  merge loop (`while idx > j`) vs dense loop.
* **C10, C11**: `ce_to_dense`, `ce_bool_to_dense`, `case_ptr_to_indexes`, `ce_dissolve_zero_variance` as
  row loops with the running case counter.
* **C12–C17**: `NestingTree` as node list + attributed edge list, all editing methods; topological sort as the heap
  loop; standard order; slot arrays; cascades.
* **C18–C22**: parameter frame as list of named rows, `set_values`/`set_value`/`lock_value`/`_ensure_names`;
  best-tracking and null-likelihood as a state machine.
* **C23–C25**: linear function algebra with string data; evaluation; repr with precedence.
* **C26–C28**: constraints over ℝ.
* **C29–C32**: line searches over an arbitrary objective; `finally`; integer ranges.
* **C33, C34**: bit packing over ℕ.
* **C35–C38, C41, C45**: array utilities, on lists.
* **C39, C40**: latent class and group as finite sums over abstract member models.
* **C42, C43**: notifier and setters as small state machines.
* **C44**: penalties over ℝ.
* **C46**: matrices over ℝ (Mathlib `Matrix`).
<!--more-->
* **C47** (`Model/Cases`): the storing of casewise values by both engines' drivers, sum compared with the returned total.
* **C48** (`Model/Sparse`): `construct.py`'s conversion of a MultiIndex frame to rows and case pointers.
* **C49–C52** (`Model/Util`): the remaining array helpers, on lists.
* **C53** (`Model/Params`): `set_value`, frame rows other than the named one.
* **C54** (`Model/Watch`): heap of function objects, who is notified; refinement to plain values.
* **C55–C58** (`Model/Graph`, `Model/GraphModel`): caches of the nesting tree invalidated by edits; positions of alternatives;
  copying of a graph into a model; change of root as renaming.
* **C59–C62, C64** (`Model/Constraints`, `Model/ConstraintList`): binding tests, violation reports, list operations over a heap of
  constraint objects.
* **C63** (`Model/Penalty`): penalty added to value and gradient.
* **C65–C67** (`Model/Setters`, `Model/Loading`): histories of statements; which statements discard loaded data; caches.
* **C68, C69** (`Model/Maximize`): control flow around arbitrary optimizers.
* **C70, C71** (`Model/Latent`): the BHHH buffer; sharing of a parameter frame over a heap.
* **C72–C76** (`Model/Compiled`): the Cython kernels (utility assembly, multinomial and nested/network logit, gradients), compared with the
  logit / network logit specifications and with the numba kernel.
* **C77** (`Model/Weights`): weights, choices and normalization as functions; invariant "contribution of every choice" over histories of calls.
* **C78** (`Model/Frames`): the container as lists of labelled rows with pandas levels; membership by cumulated shares; partition by order.
* **C79** (`Model/Frames`, `Model/FramesAv`): position of a case = rank of its code; increasing levels make ranks and sorted frames agree.
* **C80** (`Model/FramesCe`): writing through the reverse map, pivoting back; round trip.
* **C82** (`Model/Cascade`): in-place updates in the standard order = a fold over children (C13: bottom-up); induction over the graph.
* **C81** (`Model/Doctor`): each check as a function of the frames with NaN; a frame and a post-condition per check, composed.
* **C83** (`Model/Standardize`): mask alignment by shape, column statistics over the reals; algebra of sums.
* **C84** (`Model/Dataset`): a frame as labelled rows with levels and codes; each step of `from_idca` as a function on variables; values followed through the steps by cell.
* **C85** (`Model/Request`): the request as a record of texts; `columnize` as evaluation of a list or mapping, in the order in which pyarrow (or pandas) lays the columns out; the loaded arrays addressed by positions and compared with the evaluation of each alternative's own expression.
* **C86** (`Model/Summary`): the tables of choices and availability as functions of positions, numpy's broadcast of one-dimensional weights and pandas' relabelling explicit; sums compared with finite sums; graphs through C82 (now for both engines).
* **C87** (`Model/ParamsStats`): `likelihood_ratio` as the sequence of `set_value`, evaluation, `set_value` on the frame, with exceptions; a loop invariant (settings equal up to the record of the best values); rho squared on top of C22.
* **C88** (`Model/ParamsStats`): numpy's `maximum`/`minimum`/`where`/`fillna` on numbers with infinities and NaN; order reasoning.
* **C89** (`Model/ParamsStats`): the two loops over categories and patterns on a set of names, matching and sorting abstract; membership and distinctness by induction.
* **C90** (`Model/Labels`): arrays as rows of the visited cases (C31), index slicing and the shape checks of pandas explicit; position-wise comparison of labels and rows.
* **C91** (`Model/Sklearn`): rows keyed by case and alternative, slots in the order of the data; the formulas of `score`, `nanargmax` by induction.
* **C92** (`Model/Persist`): two forced scans and the overlay of the old settings on the frame of C20; row lookup equations.
* **C93** (`Model/Persist`): a model as a record of what is saved and what is not, the two attributes holding the nesting structure separate; the descriptor's copy from C57; `__setstate__` inverted, then equations between records.
* **C94** (`Model/Nesting`): settings as a nested inductive type, `make_nest` by structural recursion over it on the graph of C12 and the dictionary of names; an invariant relating dictionary, nodes, flagged edges and parameters to the links read so far; acyclicity by a rank from the order of creation.
* **C95** (`Model/Coefs`): the loops over table rows on the frame of C20 through `set_value`; both loops are shown equal to one map over the rows of the frame, from which every clause is read off.
* **C96** (`Model/SpecUtil`): sums and products of the objects of C26 on token lists; closure of {0, component, function} under the additions and products used, values by the reader of Python arithmetic; dictionary assignment by lookup equations.
* **C97** (`Model/Cdap`): `itertools.product` by recursion; position in the product equals the base-three value, by induction on the household size.
* **C98** (`Model/Cdap`): the loops as a list of additions to a map from codes to functions; lookups in the resulting map, then the renaming of tokens evaluated by the reader of Python arithmetic in the person's own environment.
* **C99** (`Model/Cdap`): `itertools.combinations` related to `Finset.powersetCard`; the groups of the table and the sets of persons swapped by sum manipulation; the product of tests evaluated by the reader.
* **C100** (`Model/Selector`): pandas boolean indexing (by position, or by label after reordering) and `unstack()[...].stack()` on the frames of C79; the constructor and the reading of rows are those of C79.
* **C101** (`Model/Slots`): label lookups as `count = 1` / last-wins dictionary, loops that stop at the first exception; the arrays and the specification related term by term (`Linked`), then composed with the kernel theorems of C08 and C73.
* **C102** (`Model/Link`): a world of models and `DataFrames` with the links stored where the code stores them; invariant over all histories (inductive predicate of statements), composed with C101 for the utilities.
* **C103** (`Model/Hessian`): the loop of finite differences threaded through the model's values; closed form by induction over the parameters, then the mean value theorem and the definition of the derivative.
* **C104** (`Model/Hessian`): the similarity measure on reals with NaN; logarithm inequalities.
* **C105** (`Model/Runner`): the rows of the work arrays and which of them the kernel overwrites under which flags; the penalty block in place; every method's result computed in an arbitrary state, then induction over histories for the parameters in force.
* **C106** (`Model/Omx`): the file as an attribute and two groups; every statement gives the file afterwards and whether it raised; invariant over histories, with the careless statements as violations.
* **C107** (`Model/Omx`): assignment of a chunk as a fold over its rows; by induction over the chunks the cell is the last value for it in the whole table.
* **C108** (`Model/Omx`): the branches over argument kinds; a join as filter and map, which for distinct labels is a zip.
* **C109** (`Model/MagicNest`): the calls on the graph as a list computed from masks and codes; arithmetic of the packed codes gives each code, an invariant over the calls (explicit edges are exactly those added, implied ones only at nodes without) gives the graph; tree shape and descendants from a separate description `NestsBy`.
* **C110** (`Model/Recode`): positions in a feature list, packing; injectivity of the packing for shared features and offset; the mask loop shown independent of the array it starts from.
* **C111** (`Model/Recode`): the search for a free name, with a pigeonhole argument for its end.
* **C112** (`Model/StdErr`): the eigenvalue routine by its contract (orthonormal eigenvectors of the lower triangle, or failure); completeness of an orthonormal family gives "reported iff flat", rounding is modelled exactly.
* **C113** (`Model/StdErr`): the column assignments over the matrices of C46, with IEEE division; invariants of the loop that replaces huge t statistics.
* **C114** (`Model/StdErr`): the sequence of overwriting assignments equals the number of levels exceeded.
* **C115** (`Model/Display`): texts as token lists, read by the grammar of `Spec/PyExpr`; a general lemma for sums of products of factors gives the reading of every printed function, then its value (arithmetic) and what larch's operators make of it (the object algebra of C23). References are modelled character by character, with a reader for single-quoted literals.
* **C116** (`Model/Display`): the row-writing loops as a fold over a state (line, operator, rows); their text is the joined list of terms; then the reading lemma of C115. The HTML cells the same way, with a leading plus.
* **C117** (`Model/Display`): the digested text as a concatenation; cancellation plus injectivity of printing (from C115); the tree contributes attribute lists only, with concrete trees as counterexamples.
* **C118** (`Model/Pods`): lists of pods and the service as state machines with the partial effects of calls that raise; the invariant is pairwise agreement of shapes plus one number of cases, by induction over histories.
* **C119** (`Model/PodLoad`): expressions as trees, resolution by first pod; refinement to the relation `Denotes`; masks by induction over tokens; reloading by comparison column by column.
* **C120** (`Model/PodSelect`): slices as in CPython; the row formula is shown to count the steps, for positive and negative steps; frames by the relation between positions and rows.
* **C121** (`Model/PValue`): expressions as trees over sources of values, with exceptions; agreement with the arithmetic relation `PM.Has` by induction; the scan of the model's functions (C20) is a side effect of looking up a name only.
* **C122** (`Model/Evaluate`): evaluation as a relation (data are parsed Python expressions, C24); equal to `FuncHas`, by induction over terms; rewriting by the same relation.
* **C123** (`Model/ConText`): the patterns are transcribed and run by a backtracking matcher (all matches in Python's order, first taken); the matcher is shown equal to the language of the pattern; texts are cut uniquely at signs, so the order of the patterns can be resolved; the grammar `Written` is separate.
* **C124** (`Model/Shared`): memory as addresses of arrays, `DataFrames` objects as owners; an operation on one object is the C77 model of weights applied to its view and written back in place; invariant: one owner per array.
* **C125** (`Model/RefLL`): the reference models are run through the compiled multinomial kernel (C72) on data loaded as in C124; Gibbs' inequality over the reals; the optimizer is a parameter.
* **C126** (`Model/StatTable`): caches as a state machine; invariant: each cache is zero or the value for the current data; rows compared with a separate table of meanings.
* **C127** (`Model/LatentData`): the request as a dictionary, merged class by class in the order of the code; `list(set(...))` is any function with the right elements; loading is C85's `make_dataframes`; log likelihood from C39 on the weights of C77.
* **C128** (`Model/Joint`): the table as a function of labels, every assignment of the code as an update; each step changes only the columns with the title of its model; index by C89.
* **C129** (`Model/Feathers`): each file is a flat list of values with a flag for its memory order; writing and reading by the index arithmetic of numpy; the round trip by lemmas on flattening and on levels of indexes.
* **C130** (`Model/Crack`): columns as a Boolean kind plus real values that may be missing; standard deviation over the reals; recovery of a cell is a relation between the two parts and the original.
* **C131** (`Model/DataSource`): the caches of the numba model as a state machine with exceptions; invariant: everything held belongs to the tree and the specification; compared with `shouldUse`, what a new model would use.
* **C132** (`Model/Scoring`): `argsort` is any increasing arrangement; ranks are counted against the number of better alternatives.
* **C133** (`Model/Jump`): both loops over slices of cases; the specification `Walk` chains BHHH steps (`IsStep`, by Penrose's equations) of groups of cases.
* **C134** (`Model/AltSpec`): datasets along single dimensions; `alts` in all its forms; `xarray.merge` is a parameter.
* **C135**, **C136** (`Model/Choices`): the constructor of DataFrames for every form of choices, availability and weights; values are integers (they are only copied and compared), `crack` and missing values left out.
* **C137** (`Model/Store`): dump and load over the constructor of `Model/Choices`; joblib is taken to return the frames stored.
* **C138** (`Model/Store`, `recode`): new_systematic_alternatives from the new code of each row on; the computation of the codes themselves is a parameter.
* **C139** (`Model/Combine`): the four conversions as list functions over rows with possibly missing values; pandas' unstack, stack and inner merge as defined there.
* **C140** (`Model/SizeTerms`): the size coefficients, the terms of quantity_ca and the filter of choosers over the reals; reading files, the rest of the utility and the merge of land use are not modelled.
* **C141, C142** (`Model/AsimModels`): terms of the utilities, templates, linking of coefficients and availability over the reals; reading files, nests and the data service are not modelled.
* **C143, C144** (`Model/DataPrep`): tables are lists of rows of cells (missing, number, text); the conversion of one label to an integer and of one text to a number are arbitrary functions. Reading CSV files is not modelled.
* **C145** (`Model/DataPrep`): the renaming as a function of the lists of names.
* **C146, C147** (`Model/ArrayStats`): statistics over the reals with missing and infinite entries; the histogram and the statistics of chosen values are not modelled.
* **C148** (`Model/PodCe`): vectors of a pod as lists; HDF5 storage is not modelled.
* **C149-C151** (`Model/Archive`): a file system is a partial map from paths to bytes; SHA-256 and gzip are parameters (gzip only as a pair of functions with `ungz (gz b) = some b`); refused reads are a schedule; directories, disks and times are not modelled, `glob` is a predicate on names.
* **C152** (`Model/RateLimit`): small-step systems with any number of threads, one lock and a clock which advances arbitrarily between steps; `time.sleep` lasts at least as long as asked.
* **C153, C154** (`Model/Series`): the terms are built with the operators of `Model/Linear` and read with the grammar of `Spec/PyExpr`; real numbers for floats.
* **C155** (`Model/Prelearn`): a classifier is the record of what it was fitted to and evaluated on; data are abstract and the split into training and validation data is an arbitrary function.
* **C156** (`Model/MultiIdx`): a level is its labels and codes, with numpy's negative indexes; the other parts of pandas are not modelled.
* **C157, C158** (`Model/Tally`): of `sort_values` only that it sorts is assumed; weights are rational.
* **C159** (`Model/TreeParts`): networkx's `subgraph` (a view made with the constructor of the class) and `descendants` are modelled as documented there.
* **C160, C161** (`Model/Terms`): scales are real (no nan); identity of function objects only as far as a mapping or function assigned or added to itself (sharing between models is C54).
* **C162** (`Model/MergeIn`): values abstract with one missing value; keys are names of variables; expressions as keys, and the pod's own key columns under `names`, not modelled.
* **C163** (`Model/Lookup`): expressions evaluate to a matrix (C57 treats expressions); `__getitem__` of these pods, which does the same as load_data_item with slices only, not modelled.
* **C164, C165** (`Model/Dbf`): files are lists of bytes; signed `char`, wrapping `int` products; `atof` and UTF-8 decoding are parameters or left as bytes; `.gz`, make_copy, convert_to_hdf5 and the parallel reader not modelled.
* **C166, C167** (`Model/Matrices`): histories of edits, looks, `set_values`, removals and calculations over the frame of C20; the numbers calculated are any functions of two names; the arrays kept have no names.
* **C168** (`Model/Vault`): the children of a group with lists of values; pickling is the identity; regular expressions of letters, digits, underscores and dots.
* **C169** (`Model/Columnize`): tokens are rewritten one by one; Python's grammar is an inductive relation with levels of precedence as parameter, its operations on values a structure `Sem`; that Python's parser is unambiguous is trusted.
* **C170, C171** (`Model/QueryCases`): variables as lists along cases, `xarray.query` as one truth value for each case; zarr stores as a map from paths to datasets.
* **C172, C173** (`Model/Shares`, `Model/DistFig`): numpy's histogram by differences of cumulative weights, percentiles by linear interpolation, over an ordered field; `none` is NaN. Drawing, kernel densities, `range` and scales are not modelled.
* **C174** (`Model/PodVars`): a pod is a list of named arrays with a shape and opaque contents, and the `SHAPE` attribute; renaming patterns are arbitrary functions on names, expressions arbitrary functions of the variables. PyTables' refusals (name taken, name not legal, type not storable) are modelled as it documents them.
* **C175** (`Model/SqlRead`): a statement is its list of rows with a position, reset after `SQLITE_DONE` as SQLite documents; cells are NULL, integers, reals or text with SQLite's conversions as parameters.
* **C176** (`Model/Kde`): over the reals with Lebesgue integrals; the kernel is any integrable function of area one (the tophat and gaussian kernels are shown to be), `sklearn`'s estimate is the weighted mean of kernels.
* **C177** (`Model/IdcaStats`): histograms as in C172; densities as in C176; the drawing is not modelled.
* **C178** (`Model/ServiceData`): composition of the models of reading pods (C120) and of the constructor of `DataFrames` (C135, C136); integer values.
* **C179** (`Model/StackPod`): state machine over `set_alts`, `set_bunch` and changes by the caller of the dictionaries and lists; expressions by the model of C119, storage by the vault of C168. Selectors are those of the pods beneath.
* **C180** (`Model/Naming`): texts are lists of characters; Python's classes of characters are a parameter with the ASCII instance.
* **C181** (`Model/CrossTab`): exact rationals; rounding for display is left out. Records are pairs of categories.
* **C182** (`Model/FromIdce`): composition of C130 (`crack_idca`, by its characterisation as constancy within cases) and of the constructor (C135, C136).
* **C183** (`Model/PodCopy`): arrays as shape and values in row-major order; `re.match` is a parameter. Proved by induction over the variables, for any pods and patterns.
* **C184** (`Model/HistFig`): over any ordered field; `numpy.percentile` and the width found by numpy's named methods are parameters; the histogram itself is that of C172.
* **C185** (`Model/CeTable`): the loops of `array_to_ce` with their bounds, over the idce data of C80; `make_mnl` as the utility it defines, over any field.
* **C186** (`Model/SmartRead`): headers are lists of characters, with the letters of the English alphabet; numbers of bytes and percentages are rationals before they are rounded for display.
* **C187** (`Model/OneHotFrame`): cells are of one ordered type with a zero and a one; the text of a column name is a parameter (injective for the round trip).
* **C188** (`Model/Notify`): a state machine of the frame, the snapshot of the last check, the batch level and the copy in the data; setters are arbitrary functions of the frame (C20 has theirs). By induction on histories.
* **C189** (`Model/PodExpr`): expressions as trees, the pass that replaces `in`, evaluation on arrays with the store's selection, the fallback for selectors the library refuses, keys with a final slice, groups of pods. By induction on expressions. The replacement of names in the text is that of C169.
* **C190, C191, C192** (`Model/Workbook`): a workbook as intervals of rows written to; the writer's rows, captions, contents and names of sheets. C190 by an invariant of histories (what is on a sheet ends above the row kept for it; every mark of a heading is linked). C191: pieces of 30000 characters joined again. C192: the cells placed are the fold over the outline, by induction on the nesting; positions increase in reading order. Formats, widths, and what Excel makes of cell texts are not modelled.
* **C193** (`Model/OmxRemap`): on the files of C106, the loops of `change_cols`, `import_omx` and `change_atom_type` with slicers as lists of positions and numpy's rule for assigning to a selection; by induction on the names, with the content of the file as the fold of blank, old and moved cells.
* **C194** (`Model/CdapData`): tables as lists of rows, merge, grouping by size and `unstack` as functions; the patterns of C97. That each household is in one table with its persons' data follows from uniqueness of households and of ranks; by induction on the persons for the joined choices. Sums of columns with missing texts are not modelled.
* **C195** (`Model/AltNames`): names as lists of characters, `str` of a value as a parameter; on the codes and masks of C33. Names split back at dashes, so they identify rows; nests by clearing low bits; the misnaming by the carry of the counter into the last level.
* **C196** (`Model/Dissolve`): the dictionary of positions as a search from the end, numpy's rule for the type of a vectorized function's result, the loop over the variables by induction; `reset_index` itself is not modelled. Counts by `List.count` over the sorted distinct values.
* **C197** (`Model/HtmlTable`): the list `skip_index` and the loops over rows and cells; refinement to the placement rule by an invariant (what `skip_index` says of every column is how far the cells above reach down). Finding tags and texts is BeautifulSoup's and not modelled.
* **C198** (`Model/TimeText`): durations as exact rationals, texts as numbers with units, rounding half to even; the sum of the text is shown to be the duration rounded once (the parts taken off are even numbers of hundredths), which gives value and order. `TimingLog` as a function of its clock readings. Colours, log levels and the digits are not modelled.
* **C199** (`Model/ShowText`): the loops of `truncate_path_for_display` and `grid_str` over texts as lists of characters; induction over the parts and over the columns. Symbolic parts of `pathlib` (dots, repeated slashes, Windows) and the fallbacks of `max_len` are not modelled.
* **C200** (`Model/CloseMatch`): filter, `nlargest` as a sorted prefix; the measures of `difflib` are parameters with its documented bounds.
* **C201** (`Model/PreApply`): the join by case, the filling with zeros and the assignment of the output; the classifier and the evaluation of expressions are parameters. Equality of column types and the warnings of pandas are not modelled.
* **C202** (`Model/Pictures`): the blocks and their sums, and the trimming, over pictures as functions from places to the values of their bands. Exact numbers; the marked picture is not modelled.
* **C203** (`Model/Watched`): histories of calls over a list of entries and a log of notifications; contents by induction over the history against a plain dictionary as a partial function. Callbacks may raise but do not touch the dictionary.
* **C204** (`Model/StrDict`): the dictionary of C203 without notifications, `str` a parameter with `str (str x) = str x`; histories by induction with distinct keys as the invariant.
* **C205** (`Model/LogSetup`): the handlers of the logger and their levels after histories of calls, by induction, and the rule of `logging` for which handlers write a message; `abspath` is a parameter.
* **C206** (`Model/TempCopy`): the directory as names with contents, `splitext` on lists of characters; a free name within as many rounds as files by the injectivity of the numbered names; sequences of copies by induction.
* **C207** (`Model/TestCode`): the scan over lines as lists of characters; documents as texts and blocks by induction. Running the code, and documents as notebooks, are not modelled.

## Findings: where the code does not have the property

Each is a theorem with a concrete witness (or a refutation for all inputs); `MANIFEST.json` and the comments at the theorems say what was
proved instead.

* **C01** Choice probabilities form a distribution: `C01_fails_sparse_unavailable_row`.
* **C02** Unavailable alternatives never receive probability: `C02_fails_sparse_unavailable_row`.
* **C03** Logsums are exact and overflow-shifted evaluation does not change them: `C03_fails_mu_zero`.
* **C05** The analytic gradient is the derivative of the log likelihood: `C05_fails_shared_logsum`, `C05_fails_root_logsum`, `C05_fails_duplicate_quantity`.
* **C06** BHHH matrices are symmetric positive semidefinite outer products: `C06_fails_duplicate_quantity`.
* **C07** Held-fast parameters have zero gradient: `C07_fails_logsum`.
* **C08** Computed utilities are the declared linear functions: `C08_fails_duplicate_quantity`.
* **C09** Sparse (idce) and dense (idca) data give the same utilities: `C09_fails_unsorted`.
* **C10** Sparse-to-dense conversion puts each row in its own case and alternative: `C10_fails_empty_case`.
* **C100** Selecting cases keeps exactly those cases, with all their data: `C100_fails_missing`, `C100_fails_unused_alternative`.
* **C101** Names resolve to the right parameter, column and alternative: `C101_fails_idce`, `C101_fails_both`, `C101_fails_constants`, `C101_fails_rename`, `C101_fails_scale_alone`.
* **C102** Evaluations use the model's own specification, parameters and data: `C102_fails_shared`, `C102_fails_after_error`, `C102_fails_columns`.
* **C103** The Hessian is the second derivative and computing it leaves the model as it was: `C103_fails_restore`, `C103_fails_robust`, `C103_fails_nan`, `C103_fails_symmetric`.
* **C104** A gradient check that passes means the gradients agree: `C104_fails_nan`, `C104_fails_zero`.
* **C105** Evaluations do not depend on earlier evaluations: `C105_fails_bhhh`, `C105_fails_actual`.
* **C106** The arrays of a matrix file fit the file: `C106_fails_no_rows`, `C106_fails_first_matrix`, `C106_fails_first_lookup`, `C106_fails_setshape`, `C106_fails_crop`, `C106_fails_both`.
* **C107** Importing tables into a matrix file: `C107_fails_3d`, `C107_fails_order`.
* **C108** Cells of a matrix file as frames: `C108_fails_rc`, `C108_fails_list`, `C108_fails_join`.
* **C109** Nests built from categories are the nests of those categories: `C109_fails`.
* **C11** Zero-variance dissolving is lossless: `C11_fails_empty_case`, `C11_fails_nan`.
* **C110** A second frame is coded like the first: `C110_fails`, `C110_fails_altcodes`.
* **C111** The code column does not replace a column of the frame: `C111_fails`.
* **C112** The report of over-specification names exactly the unidentified directions: `C112_fails_zero`, `C112_fails_empty`, `C112_fails_stale`.
* **C113** Standard errors and t statistics are those of the covariance matrix: `C113_fails_holdfast`, `C113_fails_pinned_null`, `C113_fails_stale`.
* **C115** Printed linear functions are the functions: `C115_fails_single_parameter`, `C115_fails_zero_term`, `C115_fails_unit_text`, `C115_fails_quote`.
* **C116** Tables of utility functions show the utilities: `C116_fails_html_quantity`.
* **C117** The specification hash identifies the specification: `C117_fails_nests`, `C117_fails_codes`, `C117_fails_order`.
* **C118** The pods of a data service fit together: `C118_fails_refused_pod_stays`, `C118_fails_set_alternatives_not_passed_on`, `C118_fails_same_identifier`.
* **C119** Data items are read from the first pod that has them, and reloading what may have changed is enough: `C119_fails_given_array_keeps_nan`, `C119_fails_list_of_names`, `C119_fails_reload_after_a_name_is_gone`.
* **C12** Nesting tree stays rooted: `C12_fails_edge_from_new_node`, `C12_fails_no_parents`, `C12_fails_remove_root`.
* **C120** The data read with a selector are those of the selected cases: `C120_fails_refused_selector_clears`, `C120_fails_slice_as_default`, `C120_fails_empty_selector`, `C120_fails_single_case`, `C120_fails_selector_at_construction`, `C120_fails_no_case_selected`.
* **C121** The value of a parameter expression is its value at the model's parameters: `C121_fails_unscanned`, `C121_fails_order`, `C121_fails_empty_function`, `C121_fails_number_in_function`, `C121_fails_list`, `C121_fails_dictionaries`.
* **C122** Evaluating a linear function with data gives the sum of parameter times data, and rewriting its texts does what it says: `C122_fails_without_namespace`, `C122_fails_two_values`, `C122_fails_placeholder`, `C122_fails_data_container`.
* **C123** A constraint written as text says what is written: `C123_fails_number_like`, `C123_fails_two_numbers`, `C123_fails_forms`, `C123_fails_negative_fraction`, `C123_fails_strict`, `C123_fails_assignment`.
* **C124** Loading data into a model leaves its source and other models alone: `C124_fails_source_rescaled`, `C124_fails_second_model`, `C124_fails_named_choices`.
* **C125** Log likelihoods of no model and of constants only are what they are called: `C125_fails_no_idco`, `C125_fails_rescales`, `C125_fails_rho_twice`.
* **C126** Each row of the table of estimation statistics shows the value its label names: `C126_fails_other_data`, `C126_fails_mixed_rho`, `C126_fails_zero`.
* **C127** A latent class model is given the data its classes specify: `C127_fails_choice_co`, `C127_fails_any`, `C127_fails_mixed`, `C127_fails_weights`, `C127_fails_keys`.
* **C128** The joint table of several models shows each model in its own column: `C128_fails_titles`, `C128_fails_rho_base`, `C128_fails_rho_null`.
* **C129** Data saved to Feather files are loaded back: `C129_fails_normalized`, `C129_fails_unused_alternative`, `C129_fails_wide_choices`, `C129_fails_no_columns`, `C129_fails_stale`, `C129_fails_inject_weights`, `C129_fails_inject_partly`.
* **C13** Standard node order puts children before parents, each node once: `C13_fails_duplicate_suggestion`, `C13_fails_stale_suggestion`.
* **C130** Cracking alternatives' data into case data loses nothing: `C130_fails_missing`, `C130_fails_varying_weights`, `C130_fails_named_weights`.
* **C131** A numba model uses the data assigned to it last: `C131_fails_alternatives`, `C131_fails_same_tree`, `C131_fails_dataset`, `C131_fails_frames`, `C131_fails_old_frames`.
* **C132** Top-k accuracy is the share of choices among the k most probable: `C132_fails_ties`.
* **C133** A jump start makes one step for every group of cases: `C133_fails_compiled`, `C133_fails_leave_out`.
* **C134** The alternatives given to a dataset are its alternatives: `C134_fails_relabel`, `C134_fails_unknown_dim`, `C134_fails_index`, `C134_fails_set_caseid`, `C134_fails_merge_join`.
* **C135** The choices of a DataFrames are the choices it is given: `C135_fails_unknown_code`, `C135_fails_array`, `C135_fails_one_row_per_case`, `C135_fails_rows_complete`, `C135_fails_codes_idce`, `C135_fails_code_order`.
* **C136** The availability and weights of a DataFrames are those it is given: `C136_fails_weights_column`, `C136_fails_weights_alternatives`, `C136_fails_weights_missing`, `C136_fails_columns`, `C136_fails_named_idce`.
* **C137** A DataFrames saved in a file is loaded back: `C137_fails_names`, `C137_fails_total_weight`, `C137_fails_index_name`, `C137_fails_codes`, `C137_fails_format`.
* **C138** New systematic alternatives keep the data of every row: `C138_fails_idca`, `C138_fails_complete`.
* **C139** Frames made of several frames hold the data of each: `C139_fails_columns`, `C139_fails_missing`, `C139_fails_unused`, `C139_fails_dropped`, `C139_fails_shared`.
* **C14** Cyclic nesting graphs are rejected: `C14_fails_cycles_dropped_silently`, `C14_fails_example`.
* **C140** The size terms of a location choice model are those of the size specification: `C140_fails_bounds`, `C140_fails_zone`, `C140_fails_names`.
* **C141** Utilities and availability of a tour mode choice model are those of the spec: `C141_fails_purpose`, `C141_fails_number`, `C141_fails_empty`.
* **C142** Linked coefficients and availability of a tour frequency model: `C142_fails_number`, `C142_fails_hold`, `C142_fails_none`.
* **C143** cv_to_ca turns a choosers-variables table into idca data without changing a value: `C143_fails_pair`.
* **C144** Only choosers with a valid observed choice are kept, with the code of their choice: `C144_fails_quote`, `C144_fails_missing`, `C144_fails_large`.
* **C145** Renaming keeps idca and idco columns apart: `C145_fails_overlap`.
* **C146** Statistics of a column describe its available values: `C146_fails_ints`.
* **C148** The array made of an idce pod holds every row in its place: `C148_fails_repeat`.
* **C149** verify_hash_file tells whether a file is what make_hash_file saw: `C149_fails_read_interrupted`, `C149_fails_never_readable`, `C149_fails_gz_not_found`.
* **C150** gzip_dir keeps every file it takes: `C150_fails_gz_not_archived`, `C150_fails_order_of_targets`.
* **C151** zipdir archives the files below a directory: `C151_fails_silent_archiver`, `C151_fails_below_hidden_folder`, `C151_fails_current_directory`.
* **C152** A rate limiter lets through at most one call per interval: `C152_fails_two_threads`, `C152_fails_call_within`, `C152_fails_global`.
* **C153** polynomial and fourier_series are the functions they name: `C153_fails_sum`.
* **C154** Expanded and normalized data: `C154_fails_constant`.
* **C155** What a prelearner is fitted to: `C155_fails_no_fit`, `C155_fails_labels_from_cache`, `C155_fails_dict_used_again`, `C155_fails_own_sets`, `C155_fails_share_and_data`, `C155_fails_repeated_case`, `C155_fails_missing_values`.
* **C156** Levels of a MultiIndex keep their look: `C156_fails_missing`.
* **C157** Tallies count every entry once: `C157_fails_weighted_missing`, `C157_fails_shared_name`.
* **C158** FastMapping maps labels to their values: `C158_fails_fraction`.
* **C159** Parts of the nesting tree: `C159_fails_root`, `C159_fails_intermediate`.
* **C160** Equality and membership of linear functions: `C160_fails_symmetric`, `C160_fails_transitive`.
* **C161** Assigning utility functions does what is written or nothing: `C161_fails_parameter`, `C161_fails_list`, `C161_fails_mapping`, `C161_fails_self`, `C161_fails_with_error`, `C161_fails_read`, `C161_fails_self_add`.
* **C162** Merging a table into a pod: `C162_fails_overwrite`, `C162_fails_suffix`, `C162_fails_dedupe_index`, `C162_fails_dedupe_in_place`.
* **C163** Pods that look their data up: `C163_fails_negative`, `C163_fails_single_row`, `C163_fails_shared_single`.
* **C164** Reading the header of DBF files: `C164_fails_long_field`, `C164_fails_long_name`, `C164_fails_backlink`.
* **C165** Loading records of DBF files: `C165_fails_chunk_zero`, `C165_fails_deleted`, `C165_fails_blank`, `C165_fails_dates`, `C165_fails_2GB`.
* **C166** Stored matrices are labelled with their parameters: `C166_fails_constrained`, `C166_fails_removed`, `C166_fails_hessian`.
* **C167** lock_values locks exactly the named parameters: `C167_fails_unscanned`, `C167_fails_half_done`.
* **C168** The vault is a mapping that keeps history: `C168_fails_dots`, `C168_fails_names`, `C168_fails_delete`, `C168_fails_missing`, `C168_fails_pop`.
* **C169** Data expressions mean what is written: `C169_fails_internal`, `C169_fails_attribute`, `C169_fails_level`.
* **C170** Selecting the cases of a Dataset: `C170_fails_idce`, `C170_fails_example`.
* **C171** Arrays saved with to_zarr are loaded back: `C171_fails_directory`, `C171_fails_unnamed`, `C171_fails_coordinate`.
* **C172** Shares by bins of a variable: `C172_fails_label`, `C172_fails_lowest_unlabelled`, `C172_fails_number_of_bins`, `C172_fails_exclude`, `C172_fails_count_nests`, `C172_fails_categories`.
* **C173** The numbers of distribution figures: `C173_fails_discrete_bins`, `C173_fails_many_categories`, `C173_fails_legend`, `C173_fails_ties`, `C173_fails_trend`.
* **C174** The variables of an HDF5 pod: `C174_fails_exchange`, `C174_fails_hidden`, `C174_fails_overwrite_loses`, `C174_fails_one_case`, `C174_fails_expression`, `C174_fails_flat`, `C174_fails_looking`.
* **C175** Reading tables out of SQLite: `C175_fails_underfilled`, `C175_fails_index_missing`, `C175_fails_index_twice`, `C175_fails_out`, `C175_fails_null`, `C175_fails_pod_slice`.
* **C176** Bounded kernel densities are densities: `C176_fails_bounds`, `C176_fails_weights`, `C176_fails_area`.
* **C177** Statistics of an idca variable: `C177_fails_plotted`, `C177_fails_mean`, `C177_fails_unweighted`.
* **C178** A data service answers a request with the data asked for: `C178_fails_selection_order`, `C178_fails_code_order`, `C178_fails_silent`, `C178_fails_names`.
* **C179** A stacked pod gives the data its latest bunches name for the latest alternatives: `C179_fails_wrong_keys`, `C179_fails_item_named_zero`, `C179_fails_dots`.
* **C18** set_values respects held-fast parameters and rejects wrong sizes: `C18_fails_nan_scalar`, `C18_fails_flag_ignored`.
* **C180** Names made into identifiers: `C180_fails_keyword`, `C180_fails_collision`, `C180_fails_not_identifier`, `C180_fails_no_quotes`, `C180_fails_number_label`, `C180_fails_frame_changed`.
* **C181** A table of counts and shares adds up: `C181_fails_column_named_total`, `C181_fails_not_stacked`.
* **C182** A container made of one frame of rows holds the frame: `C182_fails_choice_moved`, `C182_fails_columns`.
* **C183** Pods made from pods, and data copied into pods, hold the same values: `C183_fails_row_number`, `C183_fails_same_name`, `C183_fails_no_such_column`.
* **C184** The bars of a histogram show the data: `C184_fails_number_of_bars`, `C184_fails_threshold`, `C184_fails_density`, `C184_fails_zeros_under`, `C184_fails_no_data`.
* **C185** A table becomes idce rows, names belong to codes, the simple model has each column: `C185_fails_unused_alternative`, `C185_fails_more_cases`, `C185_fails_repeated`, `C185_fails_length`, `C185_fails_same_utility`, `C185_fails_shared`.
* **C186** Headers of text tables, and how much has been read: `C186_fails_dots`, `C186_fails_prefixed`, `C186_fails_any_prefix`, `C186_fails_same`, `C186_fails_empty`, `C186_fails_large`, `C186_fails_iterating`, `C186_fails_left`, `C186_fails_empty_header`.
* **C187** One-hot columns of a frame: `C187_fails_single`, `C187_fails_drop`, `C187_fails_empty`.
* **C188** The data works with the values of the parameter frame: `C188_fails_evaluate_in_batch`, `C188_fails_attach_in_batch`, `C188_fails_exception`, `C188_fails_holdfast`, `C188_fails_direct`.
* **C189** The data a pod gives for an expression are the values of the expression at the cases: `C189_fails_nested`, `C189_fails_constant`, `C189_fails_whole`, `C189_fails_mask`, `C189_fails_group_mask`.
* **C190** Nothing written to a workbook overwrites anything, and the table of contents is right: `C190_fails_dict`, `C190_fails_dict_blurb`, `C190_fails_case`, `C190_fails_case_picture`.
* **C191** Objects embedded in a workbook are read back: `C191_fails_again`, `C191_fails_long`.
* **C192** A nested dict is written to a sheet as its outline: `C192_fails_frame`, `C192_fails_flat`.
* **C193** Matrix files made from other matrix files hold their cells: `C193_fails_half_done`, `C193_fails_spread`, `C193_fails_one_slicer`, `C193_fails_import_half_done`, `C193_fails_temporary`, `C193_fails_rlookup`.
* **C194** Households and persons become the cases of the activity pattern models: `C194_fails_two_cases`, `C194_fails_nobody`, `C194_fails_listed_twice`, `C194_fails_size_missing`.
* **C195** The name of a systematic alternative says which alternative it is: `C195_fails_misnamed`, `C195_fails_dash`.
* **C196** Dissolving the labels of a dimension keeps what is selected, and counting values counts them: `C196_fails`.
* **C197** Reading a table with spanning cells puts every cell where HTML puts it: `C197_fails`.
* **C198** A duration in the log adds up and is in the usual form: `C198_fails_sixty_seconds`, `C198_fails_reused`.
* **C199** Shortened paths keep the file name and grids keep their texts in columns: `C199_fails_name_alone`, `C199_fails_longer`, `C199_fails_ragged`.
* **C200** The names suggested for a wrong name are the most similar ones: `C200_fails_copies`.
* **C201** Applying a prelearner gives every row the utility of its own inputs: `C201_fails_missing`, `C201_fails_cases`.
* **C202** Pictures that differ are reported and trimming keeps what stands out: `C202_fails_gaps`, `C202_fails_tolerance`, `C202_fails_faint`.
* **C203** A watched dictionary behaves as a dictionary and tells of every read and change: `C203_fails_unheard`.
* **C204** Dictionaries of strings keep strings: `C204_fails`.
* **C205** The log goes where it was asked to, once: `C205_fails_relative`, `C205_fails_level`.
* **C206** Copies in the temporary directory overwrite nothing: `C206_fails_overwritten`.
* **C207** The code of an example is taken out of its document exactly: `C207_fails_blanks`.
* **C21** Best parameters track the best log likelihood seen: `C21_fails_fold`.
* **C22** loglike_null is side-effect free and current: `C22_fails_stale`, `C22_fails_exception`, `C22_fails_holdfast`.
* **C23** Linear-function algebra preserves value: `C23_fails_zero_minus`, `C23_fails_zero_minus_value`, `C23_fails_double_zero`, `C23_fails_negative_base`, `C23_fails_nested_product`, `C23_fails_boolean_square`, `C23_fails_boolean_exclusive`.
* **C24** Parameter-math printing is faithful: `C24_fails_subtract`, `C24_fails_divide`, `C24_fails_component`.
* **C26** Constraint functions are non-negative exactly when the constraint holds: `C26_fails_negative`, `C26_fails_zero`.
* **C27** Constraint Jacobians are the derivatives of the constraint functions: `C27_fails_same_parameter`.
* **C28** Constraint lists hold no duplicates: `C28_fails_assignment`.
* **C29** BHHH search never ends worse than it started: `C29_fails_worse`, `C29_fails_reported`, `C29_fails_nan`, `C29_fails_jumpstart`, `C29_fails_selection`.
* **C30** Estimation leaves penalty settings as found: `C30_fails_no_attribute`.
* **C31** Case slicing visits the right cases and sizes its storage exactly: `C31_fails_stop_beyond_end`, `C31_fails_negative_stop`, `C31_numba_fails_stop_minus_one`.
* **C32** Cross-validation folds partition the cases: `C32_fails_numba`.
* **C33** Systematic alternative codes are decodable: `C33_decode_fails`.
* **C37** periodize assigns the last matching interval: `C37_fails_mutates_argument`.
* **C38** label_to_index inverts the label array: `C38_fails_three_cycle`.
* **C39** Latent class probabilities are a mixture distribution: `C39_fails_missing_class`, `C39_fails_count`, `C39_fails_negative_stop`.
* **C40** A model group is the sum of its members: `C40_fails_holdfast`, `C40_fails_unused`, `C40_fails_override`, `C40_fails_nan_gradient`, `C40_fails_orphan`.
* **C42** Mutations of watched attributes notify the model: `C42_fails_assignment`, `C42_fails_history`.
* **C43** Choice and availability specifications are mutually exclusive: `C43_fails_any_false`, `C43_fails_none`.
* **C44** Soft bound penalties: `C44_fails_decreasing`, `C44_fails_derivative`.
* **C46** Covariance has zero rows for held-fast parameters: `C46_fails_robust`.
* **C47** Casewise log likelihoods add up to the total: `C47_fails_compiled`.
* **C48** Loading a sparse data frame keeps each row with its case: `C48_fails_unsorted`, `C48_fails_unused_level`.
* **C52** Float to integer conversion is lossless: `C52_fails_out_of_range`.
* **C53** set_value touches only the named parameter: `C53_fails_initvalue`, `C53_fails_unknown_name`.
* **C54** Evaluations use the utility functions as last written: `C54_fails_remove`, `C54_fails_shared`, `C54_fails_alias`, `C54_fails_values`.
* **C55** Node orders and slots follow every edit of the nesting tree: `C55_fails_suggest`, `C55_fails_after_exception`, `C55_fails_bulk`.
* **C56** Each alternative's data are used for that alternative: `C56_fails_other_orders`, `C56_fails_nest`.
* **C57** A model uses the nesting tree assigned to it: `C57_fails_root_lost`, `C57_fails_new_alternative`, `C57_fails_keyerror`.
* **C58** Changing the root code keeps the nesting structure: `C58_fails_child_as_root`.
* **C59** Only constraints that are active are reported as binding: `C59_fails_one_sided`.
* **C61** Constraints refer to the parameters they name: `C61_fails_new_parameter`, `C61_fails_effect`, `C61_fails_insert_negative`, `C61_fails_early_constraint`, `C61_fails_shared`.
* **C62** model.constraints behaves as a list: `C62_fails_iadd`, `C62_fails_reverse`.
* **C64** Every kind of constraint can be used in a model: `C64_fails_fixed`.
* **C65** Evaluations use the data specified now: `C65_fails_weight`, `C65_fails_weight_removed`, `C65_fails_edit`, `C65_fails_avail_none`, `C65_fails_del`, `C65_fails_any`.
* **C66** Prepared data flows are reused only for the same definition: `C66_fails_columns`, `C66_fails_avail`.
* **C67** Returned arrays do not change: `C67_fails_probability`, `C67_fails_logsums`.
* **C68** After estimation the model holds the reported estimates: `C68_fails`.
* **C69** Choice of the optimization method: `C69_fails_method2`.
* **C70** BHHH matrix of a latent class model: `C70_fails_bhhh`.
* **C71** A latent class model and its constituents share one parameter frame: `C71_fails_given_frame`, `C71_fails_membership`, `C71_fails_resync`, `C71_fails_detached`.
* **C72** Compiled multinomial logit engine computes the logit model: `C72_fails_duplicate_quantity`.
* **C73** Compiled engine reports the declared utilities and logsums: `C73_fails_utility`, `C73_fails_logsum`.
* **C74** Compiled engine computes network (cross-nested) logit probabilities: `C74_fails_logsum`.
* **C75** Compiled nested/network logit gradient is the derivative: `C75_fails_two_parents`, `C75_fails_root_logsum`, `C75_fails_unavailable`.
* **C76** The two engines agree: `C76_fails_two_nests`.
* **C77** Weight scaling does not change results: `C77_fails_no_weights`, `C77_fails_total_weight`, `C77_fails_no_choices`.
* **C78** Splitting data is a partition: `C78_fails_unused_level`, `C78_fails_resplit`, `C78_fails_normalization`.
* **C79** Arrays of a DataFrames are aligned: `C79_fails_weights`, `C79_fails_other_ids`, `C79_fails_text_codes`, `C79_fails_repeated`, `C79_fails_case_without_rows`.
* **C80** Conversion between tables and idce rows: `C80_fails_av_unused`, `C80_fails_co`, `C80_fails_idca`, `C80_fails_repeated`.
* **C81** The data doctor reports exactly the problems and repairs only them: `C81_fails_plus`, `C81_fails_idce`, `C81_fails_wide`.
* **C82** Availability and choices roll up the nesting structure correctly: `C82_fails_network`, `C82_fails_again`.
* **C83** Standardizing data gives mean zero and unit variance without changing the model: `C83_fails_co`, `C83_fails_ce`, `C83_fails_co_masked`, `C83_fails_twice`.
* **C84** A dataset built from a data frame holds the frame's data: `C84_fails_avail`, `C84_fails_avail_name`, `C84_fails_fill_map`, `C84_fails_names`, `C84_fails_frame`, `C84_fails_unused`, `C84_fails_query_ce`, `C84_fails_crack_close`, `C84_fails_crack_nan`.
* **C85** A model is given the data it specifies: `C85_fails_choice_co_order`, `C85_fails_choice_co_shared`, `C85_fails_choice_unknown`, `C85_fails_weight_unknown`, `C85_fails_avail_co_order`, `C85_fails_numba_transposed`.
* **C86** The summary of choices and availability counts right: `C86_fails_no_availability`, `C86_fails_no_choices`, `C86_fails_dataset_no_availability`, `C86_fails_dataset_weights`, `C86_fails_dataset_square`, `C86_fails_dataset_unavailable`, `C86_fails_graph_unavailable`.
* **C87** Likelihood ratios and rho squared are right and leave the model alone: `C87_fails_interrupt`, `C87_fails_unscanned`.
* **C88** set_cap intersects the bounds with the cap: `C88_fails_missing`, `C88_fails_value`.
* **C90** Tables of results are labelled with the right cases and alternatives: `C90_fails_no_co`, `C90_fails_negative_stop`, `C90_fails_mnl_nests`, `C90_fails_idce_slice`, `C90_fails_x`, `C90_numba_fails_quantity`, `C90_numba_fails_dataarray`.
* **C91** The scikit-learn interface predicts and scores the rows it is given: `C91_fails_labels`, `C91_fails_order`, `C91_fails_weighted`.
* **C92** remove_unused_parameters removes only unused parameters: `C92_fails_constraints`, `C92_fails_missing`.
* **C93** Saved, copied and cloned models are the same model: `C93_fails_constraints`, `C93_fails_best`, `C93_fails_dashboard`, `C93_fails_no_graph`, `C93_fails_copy`, `C93_fails_root`, `C93_fails_predict`, `C93_fails_penalty`, `C93_fails_clone_constraints`, `C93_fails_clone_nests`.
* **C94** The nesting tree built from ActivitySim settings is the one written there: `C94_fails_omitted`, `C94_fails_same_name`, `C94_fails_empty_nest`, `C94_fails_alternative_as_nest`, `C94_fails_root_listed`.
* **C95** A coefficients table is applied to a model as written, and read back: `C95_fails_bounds`, `C95_fails_many`, `C95_fails_constant`.
* **C96** The utility built from an ActivitySim spec is the sum written there: `C96_fails_placeholder`.
* **C98** Individual utilities of an activity pattern are the sum over persons: `C98_fails_prefixed`.
* **C99** Interaction utilities of an activity pattern count each matching group of persons once: `C99_fails_sizes`.

## What is modelled

| code | model |
|---|---|
| `numba/model.py` kernels, case slices, penalties, data reloading; `numba/cascading.py`; `numba/data_arrays.py` (dense/sparse, flow names) | `Kernel`, `Cases`, `Penalty`, `Setters`, `Loading`, `Sparse` |
| `numba/optimization.py`, `model/abstract_model.pyx` line searches, `model/optimization.py` | `Optimize`, `Maximize` |
| `dataframes.pyx` utility assembly; `model/mnl.pyx`, `model/nl.pyx` kernels and drivers | `Compiled`, `Cases`, `Latent` |
| `model/tree.py` | `Graph`, `GraphModel` |
| `model/parameter_frame.pyx`, `model/controller.pyx`, `model/abstract_model.pyx` (caches, covariance) | `Params`, `Covariance`, `Setters` |
| `model/linear.pyx`, `model/linear_math.py`, `util/touch_notifier.py` | `Linear`, `PMath`, `Watch` |
| `model/constraints.py` | `Constraints`, `ConstraintList`, `Penalty` |
| `dataframes.pyx` container (constructor from frames, setters, split, weights, conversions) | `Frames`, `FramesAv`, `FramesCe`, `Weights`, `Cascade`, `Standardize` |
| `troubleshooting.py` | `Doctor` |
| `dataset/construct.py` (`from_idca`), `dataset/flow.py`, `dataset/patch.py` | `Dataset` |
| `model/model.py` `required_data`, `util/dataframe.py` `columnize` of lists and mappings, `dataframes.pyx` `make_dataframes`, `numba/data_arrays.py` choices/availability | `Request` |
| `dataframes.pyx` and `dataset/__init__.py` `choice_avail_summary`, `numba/cascading.py` | `Summary`, `Cascade` |
| `abstract_model.pyx` `likelihood_ratio`, `rho_sq_null`; `parameter_frame.pyx` `set_cap`, `shift_values`, `pfo` | `ParamsStats` |
| labelled results: `controller.pyx` `probability`/`utility`/`exputility`, `numba/model.py` `_wrap_as_dataframe` and callers | `Labels` |
| `model/model.py` `predict_proba`, `predict`, `score` (idce) | `Sklearn` |
| `model/model.py` `remove_unused_parameters`, `copy`, `get_params`, constructor; `__getstate__`/`__setstate__` of both engines and the tree | `Persist` |
| `util/activitysim/general.py` `construct_nesting_tree` | `Nesting` |
| `util/activitysim/general.py` `apply_coefficients`, `explicit_value_parameters`, `update_coefficients` | `Coefs` |
| `util/activitysim/general.py` `linear_utility_from_spec`, `dict_of_linear_utility_from_spec` | `SpecUtil` |
| `util/activitysim/cdap.py` `generate_alternatives`, `cdap_base_utility_by_person`, `cdap_interaction_utility`; `general.py` `apply_replacements` | `Cdap` |
| `dataframes.pyx` `selector_co` | `Selector` |
| linking: `numba/model.py` `model_co_slots`, `model_u_ca_slots`, `model_q_ca_slots`; `dataframes.pyx` `_link_to_model_structure`, `_check_data_is_sufficient_for_model`; `controller.pyx` scan of names | `Slots` |
| `set_dataframes`, `unmangle`, `__prepare_for_compute` of both engines, `_read_in_model_parameters` | `Link` |
| `math/optimize.py`, `abstract_model.pyx` `loglike3`, `d2_loglike`, `check_d_loglike` | `Hessian` |
| `numba/model.py` `_loglike_runner`, evaluation methods, flags of the kernel; status of `fit_bhhh` | `Runner` |
| `omx.py` `OMX`: shapes, matrices, lookups, `crop`, imports of tables, `get_rc_dataframe`, `join_rc_dataframe`, `FromDataFrame` | `Omx` |
| `systematic_alternatives.py` nesting functions, recoding, lists of frames, column names | `MagicNest`, `Recode` |
| `abstract_model.pyx` `calculate_parameter_covariance` (statistics, notes), `possible_overspec.py`, `parameter_frame.pyx` `parameter_summary` (marks) | `StdErr` |
| `linear.pyx` printing, `model.py` `utility_functions`, `_utility_functions_as_frame`, `controller.pyx` `specification_hash` | `Display` |
| `data_services` (`podlist.py`, `general.py`, `service.py`; pods themselves as stores) | `Pods`, `PodLoad`, `PodSelect` |
| `pvalue`, `get_value` (`parameter_frame.pyx`), `value`, `valid`, `evaluate`, `reformat_param`, `reformat_data` (`linear.pyx`, `linear_math.py`) | `PValue`, `Evaluate` |
| `interpret_contraint`, `asfloat`, text form of `OrderingBound` (`constraints.py`), with Python's `re` for these patterns | `ConText` |
| `make_dataframes`, `load_data` as to shared arrays (`dataframes.pyx`, `controller.pyx`) | `Shared` |
| `loglike_nil`, `rho_sq_nil`, `loglike_constants_only` (`abstract_model.pyx`) | `RefLL` |
| `estimation_statistics` (`abstract_model.pyx`, `excel.py`) | `StatTable` |
| `LatentClassModel.required_data`, `load_data`, `dataframes` (`latentclass.py`) | `LatentData` |
| `joint_parameter_summary` (`util/summary.py`) | `Joint` |
| `to_feathers`, `from_feathers`, `inject_feathers` (`dataframes.pyx`) | `Feathers` |
| `crack_idca`, `force_crack_idca`, weights by case (`dataframes.pyx`) | `Crack` |
| data sources of `NumbaModel`: `datatree`, `dataset`, `set_dataframes`, `mangle`, `unmangle`, `reflow_data_arrays`, work and fixed arrays | `DataSource` |
| `scoring.py`, `top_k_accuracy` | `Scoring` |
| `jumpstart_bhhh` of both engines, `_free_slots_inverse_matrix` | `Jump` |
| `_initialize_for_larch`, `larch.merge`, `dc.CASEID`, `dc.ALTID`, `set_altids` | `AltSpec` |
| `DataFrames.__init__` (forms of `ch`, `av`, `wt`) | `Choices` |
| `DataFrames.dump`, `load`, `total_weight`, `alternatives` | `Store` |
| `DataFrames.new_systematic_alternatives` (rebuild of the container) | `Store` |
| `data_ca_as_ce`, `data_ce_as_ca`, `data_co_combined`, `data_ca_combined` | `Combine` |
| `activitysim/location_choice.py`: `size_coefficients_from_spec`, quantity and choosers of `location_choice_model` | `SizeTerms` |
| `activitysim/tour_mode_choice.py`: `tour_mode_choice_model`; `activitysim/nonmand_tour_freq.py`: `link_same_value_coefficients`, `unavail` | `AsimModels` |
| `activitysim/general.py`: `cv_to_ca`, `clean_values`, `remove_apostrophes`; choosers of `auto_ownership_model` | `DataPrep` |
| `util/statistics.py`: `statistics_for_array`, `uniques`, `invmap` | `ArrayStats` |
| `data_services/h5/h5pod/idce.py`: `create_indexes_from_labels`, `as_array_idca`; `idca.py`: `from_idce` | `PodCe` |
| `util/zipdir.py`: `make_hash_file`, `verify_hash_file`, `gzip_dir`, `gzip_archive`, `_zipdir`, `zipdir`, `Archiver` | `Archive` |
| `util/rate_limiter.py` | `RateLimit` |
| `util/common_functions.py`: `polynomial`, `fourier_series`, `fourier_expansion_names`, `fourier_expansion`, `normalize` | `Series` |
| `prelearning.py`: fit arguments, cache, joined columns, result labels | `Prelearn` |
| `util/multiindex.py` | `MultiIdx` |
| `util/counting.py`, `numba/fast_mapping.py` | `Tally` |
| `model/tree.py`: `subgraph_from`, `elemental_descendants`, competitive edges | `TreeParts` |
| `model/linear.pyx`: equality, membership, assignment to function attributes | `Terms` |
| `h5pod/idco.py`, `idce.py`: merge_external_data; `generic.py`: add_array | `MergeIn` |
| `h5pod/idrc.py`, `idga.py`, `id0a.py`, `idcs.py` | `Lookup` |
| `data_services/dbf/dbf_reader.pyx` | `Dbf` |
| `parameter_frame.pyx` (stored matrices, `lock_values`) | `Matrices` |
| `data_services/h5/h5vault.py` | `Vault` |
| `util/dataframe.py`: `columnize` of expressions | `Columnize` |
| `dataset/flow.py`: `query_cases`; `dataset/__init__.py`: `to_zarr`, `from_zarr` | `QueryCases` |
| `util/figures.py`: `share_figure`, `distribution_on_idco_variable`, `distribution_figure`, `pseudo_bar_data` | `Shares`, `DistFig` |
| `data_services/h5/h5pod/generic.py`: `rename_vars`, `shape`, `add_array`, `add_blank`, `add_expression`, `delete_array` | `PodVars` |
| `data_services/sqlite/sqlite_arrays.pyx`, `sqlite/__init__.py` | `SqlRead` |
| `util/bounded_kde.py` (`BoundedKDE`, `weighted_sample_std`), `datastats.py` (`idca_statistics_data`) | `Kde`, `IdcaStats` |
| `data_services/service.py` (`make_dataframes`, `validate_dataservice`) | `ServiceData` |
| `data_services/h5/h5pod/idcs.py` (H5PodCS) | `StackPod` |
| `util/naming.py` (`make_valid_identifier`, `valid_identifier_or_parenthized_string`) and the names of columns in `from_csv`, `from_excel`, `from_dataframe` | `Naming` |
| `util/dataframe.py` (`counts_and_shares`) | `CrossTab` |
| `dataframes.pyx` (`from_idce`) | `FromIdce` |
| `data_services/h5/h5pod/idco.py` (`fatten`, `reshape_to`, `copy_external_data`, `pluck_from_omx`), `idca.py` (`flatten`) | `PodCopy` |
| `util/histograms.py` (all but drawing) | `HistFig` |
| `dataframes.pyx` (`array_to_ce`, `set_alternative_names`, `make_mnl`) | `CeTable` |
| `util/smartread.py` (`interpret_header_name`, `percentread`, `bytesread`, `progress`) | `SmartRead` |
| `util/data_expansion.py` (`categorical_expansion`, `categorical_compression` on frames) | `OneHotFrame` |
| `model/parameter_frame.pyx` (`_check_if_frame_values_changed`, `batch_update`) | `Notify` |
| `data_services/h5/h5pod/generic.py` (`_evaluate_single_item`, `load_data_item`, `__getitem__`), `data_services/h5/h5podgroup.py`, `util/aster.py` | `PodExpr` |
| `util/excel.py` (`ExcelWriter.add_content_tab`, `add_worksheet`, `add_metadata`, `load_metadata`) | `Workbook` |
| `omx.py` (`change_cols`, `import_omx`, `change_atom_type`, `get_reverse_lookup`) | `OmxRemap` |
| `util/activitysim/cdap.py` (`cdap_split_data`, `cdap_dataframes`, sizes in `cdap_model`) | `CdapData` |
| `model/systematic_alternatives.py` (`alternative_name_from_code`, `altnames`) | `AltNames` |
| `dataset/flow.py` (`dissolve_coords`), `dataset/__init__.py` (`value_counts`) | `Dissolve` |
| `util/html_table_to_txt.py` (`html_tables.read`) | `HtmlTable` |
| `util/timesize.py`, `log/normal.py` (`TimingLog`) | `TimeText` |
| `util/text_manip.py` (`truncate_path_for_display`, `grid_str`, `max_len`) | `ShowText` |
| `util/text_manip.py` (`case_insensitive_close_matches`) | `CloseMatch` |
| `prelearning.py` (`Prelearner.apply`, `filter_and_join_columns`) | `PreApply` |
| `util/visual_processing.py` (`diff_images`, `trim_uniform_border`) | `Pictures` |
| `util/signal_dict.py` (`SignalDict`) | `Watched` |
| `roles.py` (`DictOfStrings`) | `StrDict` |
| `log/normal.py`, `log/verbose.py` (`log_to_console`, `log_to_file`) | `LogSetup` |
| `util/temporaryfile.py` (`TemporaryCopy`) | `TempCopy` |
| `examples/__init__.py` (`_testcode_iter`) | `TestCode` |
| `model/latentclass.py`, `model/model_group.py` | `Latent`, `Group` |
| `model/systematic_alternatives.py`, `util/bitmasking.py`, `util/arraytools.py`, `util/data_expansion.py`, `util/data_manipulation.py`, `scoring.py`, `dataset/flow.py`, `dataset/construct.py` | `AltCodes`, `Util`, `Sparse` |

## Not modelled

Drawing of plots, reporting (xhtml, excel), file formats (HDF5, OMX, DBF, SQLite I/O), evaluation of data expressions by sharrow,
scipy optimizers (only their contract "returns or raises"), scikit/torch adapters, documentation, logging, timing, floating-point rounding,
memory safety of unchecked array reads (`boundscheck(False)`), and pickling.
