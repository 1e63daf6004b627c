# Formal model of the HDDL parser and analyser

Code under study: `/repo` (Rust).  Model and proofs: `/verif/lean` (Lean 4.33.0, a few Mathlib modules).
Properties: `/verif/properties.jsonl`.  Status per property: `/verif/MANIFEST.json`.

## 1. Shape of the model

* A file is a `List UInt8` (the `Vec<u8>` of the API).  Names are byte strings (`abbrev Name := List UInt8`).
* The tokenizer state is the unread suffix of the file plus the line counter.  The Rust code holds
  an absolute cursor and a `u32`; `Model/Cursor.lean` models these, in debug and release builds, and C67 proves that the
  two agree on every file with at most 2³² − 2 newlines.
* Every fallible function returns `R a`:  `ok | err ParsingError | panic Panic | timeout`.
  `panic` is a Rust panic (`panic!`, `unwrap` on `None`/`Err`, index out of bounds, `unreachable!`, failed `assert!`).
  `timeout` only says that the explicit step budget (`fuel`) was used up.
  "Terminates" means: some budget suffices.  "Hangs" means: every budget runs out.
* `HashMap`/`HashSet` iteration order is a parameter (`HashOrd`): an arbitrary permutation chosen per container.
  Theorems quantify over it.
* External functions are parameters with no assumption, or with the contract stated below.

## 2. Trusted base

* The Lean kernel, and the axioms `propext`, `Quot.sound`, `Classical.choice`.  No other axiom is used
  (checked by `vcheck`; section 7 lists the axioms of each theorem).
* The correspondence between model and Rust code, established by reading.  Every model definition cites file and lines.
  It is supported by running the model on the tests of the repository, see section 6.
* Contracts of external code:
  - `petgraph::algo::toposort(g, None)` fails iff `g` has a cycle; `has_path_connecting(g, a, b)` iff `b` is reachable
    from `a` (reflexively).  The model has executable versions; they are proved equal to the relational closures.
  - `char::is_alphanumeric` on code points below 256 is tabulated; above 255 it is the parameter `Env.alnum`.
  - `str::parse::<f64>` succeeds on digits with one dot; `f64` values are represented by their spelling.
    Their printed form is the parameter `Env.showReal`, that in JSON a parameter of the writer (a JSON number with a
    fraction or an exponent, or `null` for infinity).  C88 assumes that it has no quotation mark.
  - `serde_json::to_string_pretty` writes two spaces per level and escapes as documented (`Model/JsonText.lean`).
  - `Url::parse("//")` is an error (relative URL without a base).
  - `Url::path`, `Url::to_file_path`, `Path::parent`, `Path::join` and `Path::extension` behave on Unix as documented
    (`Model/LspFiles.lean`, executable versions proved equal to `Spec/Urls.lean`).
  - `HashMap`/`HashSet` behave as finite maps/sets.
* `Display` of `Formula` (nodes/formula.rs), whose result `parse_action` drops, is modelled in `Model/FormulaShow.lean`, next to the parser.
* Not modelled: memory exhaustion, the size of the native stack (the depth of the recursion of the parser is C74, that of the tokenizer C89; the
  other recursive functions over formulas follow the height of the formulas),
  `clap` argument parsing, the JSON-RPC transport of `tower-lsp`,
  cancellation of requests.  The file system is a parameter (what reading a path and listing a folder give to one request; in `Model/LspAsync.lean` it may differ from one access to the next).  The scheduling of handlers by `tower-lsp` and the fair lock of `tokio` are modelled in `Model/LspAsync.lean`.

## 3. Modules

See the headers of `lean/Verif/Model/*.lean` (model of the code), `lean/Verif/Spec/*.lean` (independent specifications),
`lean/Verif/Proofs/*.lean` (lemmas) and `lean/Verif/Props/*.lean` (the theorems that count, one file per group of properties,
each with a concrete instance of its hypotheses).

## 4. Properties

| id | how it is modelled and proved |
|----|-------------------------------|
| C01 | lexer; line = 1 + newlines in the consumed part, invariant over all call histories |
| C02 | lexer; state after a peek is equivalent for all later reads |
| C03 | lexer; equality proved except for `<=`/`>=`, where a difference is proved for every such state |
| C04 | lexer; printing with arbitrary layout, then lexing, gives the tokens back (induction on the token list) |
| C05 | lexer; progress proved for files ending in a delimiter; refuted otherwise (a state that never ends is exhibited) |
| C06 | parser; termination for files ending in a delimiter by a length measure; a family of hanging files is proved to hang |
| C07 | whole `verify`; panics are classified exhaustively; witnesses for each class |
| C08 | lexer; decision table as an iff |
| C09 | lexer; value of a digit string, overflow boundary |
| C10 | lexer; equality of the two readings |
| C11 | parser; typed lists against an independent grammar relation |
| C12 | parser; formulas against an independent grammar relation |
| C13 | parser; domains against an independent grammar relation |
| C14 | parser; problems against an independent grammar relation |
| C15 | parser; independence of trailing bytes |
| C16 | parser; refuted: theorems showing the dropped text for every suffix; positive part is C13/C14 |
| C17 | parser/classifier; agreement theorem |
| C18 | parser; invariant: every recorded name/line pair comes from a token of the file |
| C19 | semantic analysis; iff with positions; refuted for constants |
| C20 | semantic analysis; iff with `Relation.TransGen` |
| C21 | semantic analysis; iff with `Relation.ReflTransGen` |
| C22 | semantic analysis; iff with `Relation.TransGen` |
| C23 | semantic analysis; `verify_domain` accepts iff declarative predicate |
| C24 | semantic analysis; `verify_problem` accepts iff declarative predicate |
| C25 | semantic analysis; soundness of undefined-entity errors |
| C26 | semantic analysis; soundness of arity errors, refuted for method tasks (swapped counts) |
| C27 | semantic analysis; soundness of type errors, refuted for the reported found type |
| C28 | semantic analysis; panic classification |
| C29 | TDG; exact characterisation of warnings, also where a compound task has the name of an action |
| C30 | TDG; soundness against an inductive refinement semantics, completeness refuted |
| C31 | TDG; completeness for every hash order, soundness refuted; bounds from both sides for all accepted domains |
| C32 | API; two hash orders give the same outcome, except for warnings if tasks are mixed |
| C33 | API; relation between two runs |
| C34 | TDG; iff with transitive closure |
| C35 | TDG; class is a maximum over cycles |
| C36 | TDG; path invariant |
| C37 | TDG; exact termination condition and hang/panic witnesses |
| C38 | API with C13 |
| C39 | JSON value; left inverse, for any order of the root hash map |
| C40 | error display; classification of panics, refuted in general |
| C41 | LSP; refinement of the document store to "last text received" |
| C42 | LSP; agreement with `verify` |
| C43 | LSP; position invariant; refuted for duplicate errors (conversion panics) |
| C44 | CLI; output as a function of the result |
| C45 | parser; equivalence with the independent grammar of `Spec/Grammar.lean` |
| C46 | whole `verify`; the state at which an error arises is reachable, so its token is in the file |
| C47 | semantic analysis; scoping relation `AtomAt`; refuted below quantifiers |
| C48 | semantic analysis; follows from C23; refuted for constants and for actions without formulas |
| C49 | TDG; maximum over cycles of methods, with independent prefixes and suffixes; refuted by a misjudged prefix |
| C50 | LSP; the request as a function of parser and `verify`; refuted for duplicates |
| C51 | planning semantics (`Spec/Planning.lean`) on top of the acceptance theorems; invariants of decomposition and of execution; refuted by objects that share a name with a constant or with a parameter of the initial network, and by quantifiers in effects |
| C52 | topological numbering of finite acyclic relations (order extension); refuted for undeclared labels |
| C53 | multiset ordering (`Relation.CutExpand`) on networks; finite branching |
| C54 | derivations against cycles of methods (leftmost analysis, shortening of walks); refuted by a misjudged prefix |
| C55 | command line over the metadata model; exact text against a separately written layout; errors of `get_metadata` are shown to be errors of the parser |
| C56 | JSON writer modelled after `serde_json`'s pretty printer; independent JSON grammar (`Spec/Json.lean`), proved unambiguous by mutual induction; writer proved to follow it |
| C57 | `Model/LspAsync.lean`: transition system with inbox, handlers reading files, queue of the fair lock, readers, store. Each access to files sees one of a set of views of the file system (`Model/LspFiles.lean`). Invariant: the store after all waiting writers is the sequential store of `Model/Lsp.lean`, each waiting reader will see the sequential store at its message, and every text in the store was sent or read from its file before. `C57_refuted`: execution with a late file read. |
| C58 | Same model. A measure decreases with every step; in a stuck state that is not dead, readers hang or all lists are empty, and the invariant locates every started request. `C58_refuted`: duplicates kill the process; `C58_refuted_save`: so does a saved file that cannot be read; `C58_blocked`: invariant that the later writer waits behind the reader that hangs. |
| C59 | Texts are compared as token sequences of the lexical specification; the grammar relation of C45 is transported along a renaming, rule by rule, and the well-formedness conditions of C23/C24 are invariant under one-to-one renaming. A scanner that is sound for the lexical specification gives concrete instances. |
| C60 | Permutations of the lists of a syntax tree; each rearrangement extends the other domain in the sense of C62, so both directions follow from monotonicity of the well-formedness conditions. |
| C61 | Erasure of the parts without effect; the well-formedness conditions of C23/C24 are shown to depend on the erased tree only. |
| C62 | Monotonicity of every well-formedness condition of C23/C24 in the declarations (`Extends`). |
| C63 | Spec/Viable.lean (shown, SameTokens), Startable in Props/Errors.lean; Proofs/ErrorAt (the judgement Bad: an error leaves a completable prefix, and the error is reproduced by every other text with the same tokens), ErrorParts, ErrorNets, ErrorFiles (one rule per parser function), ErrorText (every token that was read can be written again; completions become files). |
| C64 | Second field of the judgement Bad in Proofs/ErrorAt.lean; looking ahead and reading give the same error. |
| C65 | FirstWrong, CanEnd, Unreadable in Props/Outcomes.lean; third field of the judgement Bad (panics) in Proofs/ErrorAt.lean; Proofs/Crash.lean (a stray token after a complete problem panics; streams of one file are prefixes of each other). |
| C66 | Stuck, Hangs in Props/Outcomes.lean; Advances in Proofs/Run.lean (termination for every file on which the tokenizer moves on); stuck_of_not_moves and write_lines in Proofs/Crash.lean. |
| C67 | Model/Cursor.lean has the whole program, the absolute cursor, the u32 line and checked or wrapping arithmetic; each call is shown to agree with the suffix tokenizer of Model/Lexer.lean (lines modulo 2^32), and the agreement is lifted to all sessions of all adaptive callers. |
| C68 | `verify` as a whole; by the exact panic condition of the domain checks (`checkDomain_panic_iff`), the exact outcomes of parsing (C65, C66) and the freedom from panics of the problem checks |
| C69 | Spec/Utf8.lean has the encoding of RFC 3629 and the words of any script; Proofs/Utf8.lean proves that decodeUtf8 inverts it; the tokenizer's byte test is compared with it in Props/Scripts.lean. |
| C70 | URLs, percent escapes, folders, extensions and the file system (`Model/LspFiles.lean`) against an independent description (`Spec/Urls.lean`); the answers are those of the server of C41 to C58 on the files around the document, by induction on the listing; exact conditions of panics. Partial: `did_save` does not decode the path, refuted for every URL with an escape |
| C71 | From C70 and C50: exact for folders with one domain; the first listed domain counts otherwise. Partial: refuted for folders with several domains by one folder listed in two orders |
| C72 | The graph of the renamed domain is the graph with names renamed, and every loop of the analysis commutes with this, by induction on the budget. Iteration orders of sets of labels are identified by the label, so runs on the two files are related by a relation between orders that is total in both directions. |
| C73 | The worklists of nullables and reachability shrink a measure bounded by tasks, methods and subtasks, each of which has a token of its own in the file. The paths popped by the search for recursion are in bijection with the descents; a tower of n tasks with two methods each has 2^n of them. |
| C74 | The parser is modelled a second time with the number of active calls of `parse_formula` as an additional result (`Model/Stack.lean`); erasing it gives the first model. Bounds by counting parentheses, by the height of formulas, and by the nesting of tokens along the grammar. The claim is false for malformed but accepted files: counterexample family with nesting four and unbounded depth. |
| C75 | analyser; the checks as a list of relations (`Spec/Faults.lean`); each function of the analyser is shown to run through its part of the list, with the names known to be unique from the checks passed before |
| C76 | Decomposition depends only on the outlines of methods (`Proofs/Outline.lean`): task, labels and names of subtasks, order. `C76_computed`, `C76_metadata` from `C37_returns_iff`, `C34_non_recursive`, `C49_exact`; `C76_uniform` and `C76_warnings` from the exact characterisations of nullable tasks and warnings in uniform domains; `C76_possible`: the graphs of two such domains differ by a renumbering of tasks and methods, which the rounds of `compute_nullables` respect (`Proofs/Reorder.lean`). |
| C77 | Every cycle of a domain is one of the extension (`Proofs/Outline.lean`), so the class, which is the highest class that a cycle shows (`C49_exact`), cannot become lower. `C77_refuted` shows that uniformity is needed. |
| C78 | Narrowing of scopes and widening of formal parameters commute with looking up a type and comparing it (`Proofs/Subtyping.lean`); the verdict by `C23_acceptance` and `C24_acceptance`. |
| C79 | Looking up a name is not changed by additional names that are in no other scope (`Proofs/GrowthP.lean`); the verdict by `C24_acceptance`. |
| C80 | Looking up a used name, following parents from a used type and finding a used declaration are not changed by the removal of unused elements (`Proofs/Pruning.lean`); the verdict by `C23_acceptance` and `C24_acceptance`. |
| C81 | `domainToks` and `problemToks` (`Spec/Printing.lean`) write a tree as tokens; the text belongs to the grammar by induction on the tree and conversely every tree of the grammar has the shape (`Proofs/Printing.lean`); the parser by `C45_grammar`, layout by `C04_layout_independence`, the verdict by `C23_acceptance` and `C24_acceptance`. Real numbers are represented by their spelling. |
| C82 | `skeleton` (`Spec/Skeleton.lean`) removes parts of the tree; each function of the decomposition graph gives the same result on the graph of the skeleton (`Proofs/Skeleton.lean`); the written skeleton is read back by C81 and well-formed. |
| C83 | `Laws` (`Spec/Rewriting.lean`) is a congruence; soundness for the meaning `Interp.True` and preservation of the atoms, the atoms outside quantifiers and of `exists` by induction on the derivation (`Proofs/Rewriting.lean`); the verdict by `C23_acceptance` and `C24_acceptance`, metadata and warnings by C82. |
| C84 | `Resequenced` (`Spec/Sequence.lean`) compares the calls of task networks. Well-formedness only looks at calls and `Before`; nullables and reachability of the graph do not look at the networks (`TDG.relabel`), so orderings can be dropped from the skeleton of C82; for permutations, `Erasable`, `ReachesAction` and `HasSub` only depend on the sets of subtasks (`SameSubs`), then C29–C31 and C34; otherwise the iteration order of each set of subtasks is chosen so that the same graph arises (`SameNames.graph`) (`Proofs/Sequence.lean`). |
| C85 | `Moved` (`Spec/Moving.lean`) says that two domains and two problems only differ in constants and objects. Lookup in nested scopes without repeated names is independent of which of the two scopes a name is in (`typeIn_moved`), so well-formedness transfers (`Proofs/Moving.lean`); verdicts by C23, C24. |
| C86 | `PartOf`, `Merged` (`Spec/Parts.lean`). Decomposition of a task only uses declarations of its own part (`Portion`, `Proofs/Parts.lean`); exact characterisations C29, C31, C34, C49 give the results. For the refutation the iteration orders are reduced to those of sets of two subtasks (`Proofs/Swapped.lean`). |
| C87 | `Returning`, `Looping`, `Miscounted`, `Unlabelled` (`Spec/Search.lean`). The contexts of subtasks are classified by outcome (`TDG.context_cases`), and panics and time-outs of the search are traced back to contexts of edges of cycles (`Proofs/Search.lean`). |
| C88 | Messages as bytes: `Text.bytes`, `OutLine.bytes` (`Model/MessageText.lean`). `Spec/Messages.lean` has a reader of messages (`readReport`) that splits the bytes into words and knows nothing of the printing code. `read_semantic`, `read_lexical`, `read_syntactic`, `read_warning` (`Proofs/Messages.lean`) run the reader on printed messages; that names in errors have no spaces and tokens no quotation marks is traced back to the tokenizer (`Proofs/MessageNames.lean`, `semantic_space`). |
| C89 | `Cursor.parse` (`Model/Cursor.lean`) has a budget for nested calls; the least sufficient budget is related to `LayoutWith k` (`Spec/Comments.lean`) by induction on the layout (`parse_depth`). `C89_unbounded` uses C59 for the verdict. |
| C90 | `SameInterface`, `SameView` (`Spec/Interface.lean`). The findings of `problemChecks` (C75) depend only on the view (`FindAlike`). For the converse, problem files with one fact or one initial task and one object per parameter are written with C81 (`ask_file`); the first wrong argument reveals the type of its parameter (`ask_next`, `ask_fits`, `ask_constant`). |
| C91 | `Relaid`, `SameAnswer`, the trees `mvDomain`, `mvProblem` and the errors `mvErr` with names and lines replaced (`Spec/Relaid.lean`). Every check of the analysers commutes with replacing names and lines (`checkDomain_mv`, `verifyDomain_mv`, `verifyProblem_mv`), so does the grammar (`fileText_mv`), and the tokenizer keeps related states related (`getToken_relaid`). Two related token lists are projections of one list whose lines code pairs of lines (`laid_pair`). Errors of the parser are moved with C63, C65 (`err_relaid`, `panic_relaid`). |
| C92 | `Corresponds`, `Regrouped`, `RegroupedP` (`Spec/Regrouped.lean`). Trees that agree up to lines are projections of one tree with pairs of lines as marks (`zips_domain`), to which the moving lemmas of C91 apply. Regrouping is complete: every block list is regrouped into one block per sort (`regrouped_tidy`). |
| C93 | `Unsupported` (`Spec/Unsupported.lean`) looks at the tokens before the place only. A finite automaton with the last keyword (`walk`, `Proofs/Unsupported.lean`) goes through every text of the grammar, by induction over the grammar, and stops at unsupported tokens; C45 and C65 give the answers. |
| C94 | `Says` (`Spec/Expected.lean`) gives the meaning of each text, without reference to the parser. The invariant of C63 (`Bad`, `Proofs/ErrorAt.lean`) carries for every error a reading of its text such that each of its tokens can be completed to a text of the grammar; `parses_followed` writes that text out as a file and C45 parses it. |
| C95 | `exitCode` on the results of the commands (`Model/Cli.lean`): `main` returns `()` unless it panics. C95_zero and C95_crash give the exact conditions in terms of the answers of `verify`; with C07, C40 and C44. |
| C96 | `Excerpt` and `ExcerptP` (`Spec/Excerpt.lean`) on the trees of C45; the first finding of C75 in a list of declarations is about one of them or about two with one name; correspondence of trees as in C92, files by C81. |
| C97 | `LocalNames`, `LocalNamesP` (`Spec/LocalNames.lean`) on the trees of C45; the lists of checks of C75 for the two domains find the same, check by check; metadata by C82, problems by C90, layouts by C92. |
| C98 | `Repair`, `Repairs`, `faults`, `HeaderOk` (`Spec/Repair.lean`): an action or method depends on the other actions only through their names and types of parameters, so each repair lowers the number of faults by one; reports by the lists of checks of C75; existence by printing (C81) an explicit repair. |
| C99 | The place is the end of the shortest initial part that is parsed (C15, C45). Lines: one call of the tokenizer depends only on the bytes up to some newline or skips them (`getToken_nl`), so an error before the last line would also be found in the whole file (C65). Problems: the parser goes on with the blocks read so far (`parseProblem_goes`) and soundness of the loop gives the others. |
| C100 | `utDomain` and `utProblem` remove types from trees; `DomainFrame` and `ProblemFrame` are the conditions of `DomainOk` and `ProblemOk` without types. Without types arguments fit exactly if they are bound and their number is right (`argsFit_ut`); reports of other errors contradict the frame (`report_types`, `report_typesP`). |
| C101 | A substitution carries the names of one scope to names of another one with types that fit (`Carries`); arguments that fit still do (`argsFit_carried`), hence formulas and calls. Metadata by C82. |
| C102 | The new task is not mentioned elsewhere (`NewTask`), so old calls mean the same; all parameters can be passed on (`argsFit_params`). A path of decompositions either avoids the new task or passes it between the method's task and one of the moved subtasks (`SplitMethod.up`). |
| C103 | Each level of a conjunction copies the texts below twice (`fmt_work`). The text of a formula is at most eight bytes per byte of its tokens (`formula_bytes`), tokens are disjoint parts of the file (`feeds_bytes`); the height is bounded by C74. |
| C104 | Readers `readVerdict` and `readSummary` (`Spec/Streams.lean`) split at line ends; names are words of the file without line ends and parentheses (`names_plain`), so lines and the steps of a cycle can be told apart. |
| C105 | Relations `CyclesKept` and `ContextKept` between task networks (`Spec/Labels.lean`) speak of the closure of the constraints only; the checks of `verify` are the same lists, and the search compares prefixes and suffixes of recursive subtasks by `OrderedAfter` (`TDG.recursionType_alike`). |
| C106 | Spec/Weeding.lean removes tasks with their methods and says what it means for a network to be decomposed into actions (by the steps of Spec/Planning.lean). Tasks that are warned about have no refinement (C30); a decomposition into actions uses no method with a task or subtask without refinement, so that it is also one of the smaller domain. Acceptance follows from C80's lemma on pruned domains; the end of the repetition by induction on the number of tasks. |
| C107 | `Slice` (Spec/Slices.lean) lists the small problems. Acceptance by the specification of C24; for the report, the first check that fails is followed through the loops of verifyProblem, and lines are moved by verifyProblem_mv (C91). Repairs (`RepairP`) are counted by induction, as in C98. |

## 5. Findings

Where the code does not do what its documentation or a user's reading of it says, that is a theorem as well (`*_refuted` and others,
with a concrete file as witness unless it is about all files).  The main ones:

* Crashes of `verify`: an existential quantifier in a precondition or effect, a problem file given as domain, bytes that are not
  UTF-8, a comment or `?` at the end of the file (`C07_refuted`, `C28_refuted`; exactly when: `C68_crash`).
* Endless loops of `verify`: a file whose last byte belongs to a word, if it is cut off in a list (`C05_refuted`, `C06_refuted`; exactly
  when: `C66_hangs`, `C68_hangs`).
* Endless loops and crashes of `get_metadata`: domains without compound tasks, and some recursive methods whose subtasks are not
  totally ordered (`C37_hangs`, `C37_refuted`; exactly when it returns: `C37_returns_iff`); exponential time on others (`C73_refuted`); an ordering constraint that
  follows from others can make it crash (`C105_redundant_refuted`).
* Declarations that are dropped without an error: everything after a method with a precondition but no subtasks, or with `:constraints` after
  `:ordered-subtasks`, because the closing parenthesis is left unread (`C16_refuted`, `C38_refuted`), blocks of a problem after `:goal` (`C14_refuted`).
* A problem file that is cut off between two blocks is accepted without the missing blocks and parentheses (`C99_problem_accepted`).
* Tokens: `<=` and `>=` are looked ahead as `<` and `>` (`C03_refuted`); words with non-ASCII letters are no identifiers (`C69_refuted`).
* Checks that are missing: constants declared twice (`C19_refuted`), types of constants and of some parameters (`C48_refuted`), formulas
  below quantifiers (`C47_refuted`), labels of subtasks (`C52_refuted`), constants and parameters that are hidden by objects
  (`C51_refuted`, `C51_parameter_refuted`).
* Reports that are wrong: expected and found number of arguments are exchanged for the task of a method (`C26_refuted`), type errors of
  problems name the predicate (`C27_refuted`), an error text that cannot be computed (`C40_refuted`, `C44_refuted`).
* Nullable tasks and warnings: tasks are reported to be nullable that are not (`C31_refuted`), the result depends on the hash order
  (`C32_refuted`), on additional methods (`C77_refuted`), on the order in which subtasks are listed (`C84_listing_refuted`) and on
  unrelated tasks (`C86_refuted`); warnings are missing or wrong (`C29_refuted`, `C30_refuted`).
* Class of recursion: it depends on how the order of subtasks is written (`C49_order_refuted`, `C84_class_refuted`) and is wrong for
  some domains (`C49_refuted`, `C54_refuted`).
* Language server: errors about duplicates make it panic (`C42_refuted`, `C43_refuted`, `C50_refuted`, `C58_refuted`), as does saving a
  document whose file cannot be read, or whose URL has an escape (`C58_refuted_save`, `C70_save_refuted`); an analysis that does not end
  blocks all documents (`C58_blocked`); of several changes the first is kept (`C41_refuted`); the first domain of a folder is taken,
  not the one that the problem names (`C71_refuted`).

## 6. Checking

`cd lean && lake build`; axioms: `#print axioms <theorem>` in a scratch file importing `Verif`.
Mutation tests of the theorems are logged in `seeded/LOG.jsonl`.

The correspondence of model and code is tested, since the code itself cannot be run here, by running the model on the
inputs of the repository's own tests and comparing with what those tests assert:

* `lean/Verif/Conformance.lean` (written by `tools/conformance.py`) has every unit test of `src/*/tests` as `#guard`
  commands, evaluated at each build; the one test the repository ignores is left out.  These are tests, not proofs, and
  no theorem depends on them.
* The model was compiled outside the repository and run on the domains of `tests/flawed_domains` (the outcomes are those
  `tests/integration_flawed.rs` asserts) and on the domains and problems of the planning competition under `tests`
  (all are accepted, as `tests/integration_ipc.rs` asserts; of the later domains, problems of 60 KB and more were skipped,
  because the lists of the model make it quadratic).

## 7. Axioms of each theorem

Printed by `#print axioms`; written by `tools/axioms.py`.

* no axioms: `C31_erasable`.

* propext: `C06_refuted`, `C11_names`, `C40_line_partial`, `C56_stdout_refuted`, `C71_name`, `C92_types`, `C99_hangs`.

* Quot.sound, propext: `C02_peeks_change_nothing`, `C03_peek_agrees_partial`, `C03_refuted`, `C09_integers`, `C09_decimal_snoc`, `C09_reals`, `C11_types`, `C12_everywhere`, `C17_classify`, `C38_counts_tree`, `C39_total`, `C41_latest_partial`, `C41_never`, `C41_received`, `C41_first_change`, `C42_neither`, `C43_line_partial`, `C45_grammar`, `C50_unchecked`, `C55_total`, `C56_ok_partial`, `C56_file_partial`, `C56_error_partial`, `C58_refuted_save`, `C69_ascii`, `C70_other`, `C71_disk`, `C81_domain_shape`, `C81_problem_shape`, `C81_refuted`, `C82_outcome`, `C82_metadata`, `C83_metadata`, `C84_nullables`, `C92_metadata`, `C92_regrouped`, `C93_parsed`, `C93_never`, `C93_complete`, `C94_not_all`, `C95_accepted_partial`, `C95_unreadable`, `C95_metadata`, `C95_json`, `C100_metadata`, `C105_renamed`, `C105_closure`.

* Classical.choice, Quot.sound, propext: `C01_token_line`, `C01_error_line`, `C04_layout_independence`, `C05_progress_partial`, `C05_error_progress`, `C05_refuted`, `C06_terminates_partial`, `C08_colon_words`, `C08_plain_words`, `C10_variables_are_names`, `C11_typed_lists`, `C12_formulas`, `C13_domain_partial`, `C16_refuted`, `C14_problem_partial`, `C14_refuted`, `C15_trailing_text`, `C15_any_file`, `C15_any_problem`, `C15_problem_text`, `C16_represented_partial`, `C18_names`, `C18_orderings`, `C07_no_crash_partial`, `C07_exact`, `C07_refuted`, `C19_requirement_partial`, `C19_predicate_partial`, `C19_task_partial`, `C19_action_partial`, `C19_method_partial`, `C19_parameter_partial`, `C19_object_partial`, `C19_located`, `C19_refuted`, `C20_cyclic_types`, `C21_compatibility`, `C21_observed`, `C22_methods`, `C22_initial`, `C22_line`, `C23_acceptance`, `C24_acceptance`, `C24_needs_domain`, `C25_predicate`, `C25_type`, `C25_task`, `C25_subtask`, `C25_parameter`, `C25_object`, `C26_predicate`, `C26_task_partial`, `C26_refuted`, `C27_domain_partial`, `C27_problem_partial`, `C27_refuted`, `C28_no_crash_partial`, `C28_exact`, `C28_otherwise_right`, `C28_problem`, `C28_refuted`, `C29_warnings_partial`, `C29_exact`, `C29_refuted`, `C30_warnings_partial`, `C30_clash_partial`, `C30_refuted`, `C31_nullables_partial`, `C31_bounds_partial`, `C31_refuted`, `C31_clash_refuted`, `C32_order_partial`, `C32_uniform_partial`, `C32_refuted`, `C33_same_warnings`, `C34_non_recursive`, `C35_search_order`, `C35_exact_nullables`, `C36_cycle`, `C37_returns_partial`, `C37_returns_iff`, `C37_hangs`, `C37_refuted`, `C38_counts_partial`, `C38_refuted`, `C39_recovered`, `C39_distinct`, `C39_answers`, `C40_text_partial`, `C40_domain_text`, `C40_refuted`, `C40_line_refuted`, `C41_refuted`, `C42_accepted`, `C42_rejected_partial`, `C42_reported`, `C42_refuted`, `C43_converts_partial`, `C43_refuted`, `C44_accepted_partial`, `C44_rejected_partial`, `C44_outputs_partial`, `C44_refuted`, `C46_syntax_errors`, `C46_lexical_errors`, `C47_domain_partial`, `C47_goal_partial`, `C47_refuted`, `C48_types_partial`, `C48_refuted`, `C49_class_partial`, `C49_exact`, `C49_plain`, `C49_refuted`, `C49_order_refuted`, `C50_accepted`, `C50_reported`, `C50_rejected_partial`, `C50_refuted`, `C51_tasks_partial`, `C51_actions_partial`, `C51_states_partial`, `C51_effects_partial`, `C51_refuted`, `C51_parameter_refuted`, `C51_quantifier_refuted`, `C52_methods`, `C52_initial`, `C52_rejected_partial`, `C52_refuted`, `C53_terminates`, `C53_finite`, `C54_recursive`, `C54_left_partial`, `C54_left_found`, `C54_self_partial`, `C54_refuted`, `C55_printed`, `C55_outputs`, `C56_json_partial`, `C56_recovered_partial`, `C56_distinct_partial`, `C57_answers_partial`, `C57_latest_partial`, `C57_origin`, `C57_once`, `C57_refuted`, `C58_bounded`, `C58_answered`, `C58_crash`, `C58_served_partial`, `C58_refuted`, `C58_blocked`, `C59_trees`, `C59_domain`, `C59_problem`, `C59_warnings`, `C59_metadata_refuted`, `C60_domain`, `C60_problem`, `C60_domain_blocks`, `C60_problem_blocks`, `C60_refuted`, `C61_domain`, `C61_problem`, `C62_domain`, `C62_problem`, `C62_refuted`, `C63_first_wrong_token`, `C63_not_parsed`, `C64_first_unreadable`, `C65_wrong_token`, `C65_syntax_error`, `C65_lexical_error`, `C65_panic`, `C66_hangs`, `C66_four_cases`, `C67_token`, `C67_error`, `C67_no_overflow`, `C67_release`, `C67_release_session`, `C67_session`, `C67_debug_overflow`, `C67_release_wraps`, `C67_early_look`, `C68_crash`, `C68_hangs`, `C68_otherwise`, `C69_names_partial`, `C69_refuted`, `C69_only_names`, `C69_variables`, `C69_readable`, `C70_save_partial`, `C70_save_refuted`, `C70_blocked`, `C70_problem`, `C70_folder`, `C70_panics`, `C71_checked_partial`, `C71_first`, `C71_refuted`, `C72_metadata_partial`, `C72_total_order`, `C72_layout`, `C73_verify_partial`, `C73_metadata_partial`, `C73_metadata_least`, `C73_refuted`, `C74_parens_partial`, `C74_prefix`, `C74_height`, `C74_nesting_partial`, `C74_refuted`, `C74_unbounded`, `C75_domain`, `C75_problem`, `C75_domain_first`, `C75_accepted`, `C75_crash`, `C76_computed`, `C76_metadata`, `C76_possible`, `C76_uniform`, `C76_warnings`, `C77_recursive`, `C77_class`, `C77_uniform`, `C77_refuted`, `C78_domain`, `C78_problem`, `C79_problem`, `C79_refuted`, `C80_domain`, `C80_problem`, `C80_refuted`, `C81_domain`, `C81_problem`, `C81_domain_lenient`, `C81_problem_lenient`, `C81_domain_verdict`, `C81_problem_verdict`, `C81_domain_file`, `C81_problem_file`, `C81_normal_form`, `C82_warnings`, `C82_skeleton_file`, `C82_propositional`, `C82_orderings_needed`, `C83_meaning`, `C83_domain`, `C83_problem`, `C83_warnings`, `C83_dual_refuted`, `C83_meaning_refuted`, `C83_added_refuted`, `C84_domain`, `C84_problem`, `C84_warnings`, `C84_recursive`, `C84_nullables_uniform`, `C84_warnings_uniform`, `C84_possible`, `C84_class_refuted`, `C84_listing_refuted`, `C85_promote`, `C85_demote`, `C85_unused`, `C85_type_refuted`, `C85_parameter_refuted`, `C85_constant_refuted`, `C86_accepted`, `C86_part`, `C86_recursive`, `C86_class`, `C86_uniform`, `C86_refuted`, `C87_crash`, `C87_endless`, `C87_cases`, `C87_determined`, `C87_accepted`, `C87_order`, `C87_not_domain`, `C87_json_crash`, `C87_json_endless`, `C87_instance`, `C88_error`, `C88_warning`, `C88_alike`, `C88_exceptions`, `C88_command`, `C89_exact`, `C89_determined`, `C89_bounded`, `C89_unbounded`, `C90_view`, `C90_same`, `C90_exact`, `C91_domain`, `C91_problem`, `C91_ends`, `C91_front`, `C91_insert`, `C91_renamed`, `C91_renamed_problem`, `C92_domain`, `C92_problem`, `C92_lines`, `C92_blocks`, `C92_problem_blocks`, `C92_same_sort`, `C93_rejected`, `C93_reported`, `C93_named`, `C93_problem`, `C93_cases`, `C93_flat`, `C94_right`, `C94_all`, `C94_repair`, `C94_progress`, `C94_answer`, `C95_rejected`, `C95_zero`, `C95_crash`, `C95_codes`, `C95_domain`, `C95_usual`, `C95_told`, `C95_refuted`, `C96_domain`, `C96_domain_file`, `C96_domain_ok`, `C96_verdict`, `C96_problem`, `C96_problem_file`, `C96_problem_ok`, `C97_verdict`, `C97_report`, `C97_metadata`, `C97_problems`, `C97_network`, `C97_network_report`, `C97_capture`, `C98_count`, `C98_accepted`, `C98_header`, `C98_reported`, `C98_after_action`, `C98_after_method`, `C98_possible`, `C98_impossible`, `C99_domain`, `C99_line`, `C99_answer`, `C99_problem`, `C99_problem_parts`, `C99_problem_iff`, `C99_problem_line`, `C99_problem_accepted`, `C99_panics`, `C100_exact`, `C100_domain`, `C100_only_types`, `C100_other`, `C100_problem_exact`, `C100_problem`, `C100_problem_only_types`, `C100_partly`, `C101_methods`, `C101_metadata`, `C101_network`, `C101_converse`, `C102_domain`, `C102_problem`, `C102_decompositions`, `C102_metadata`, `C102_warnings`, `C102_types_needed`, `C102_warnings_refuted`, `C103_length`, `C103_work`, `C103_quadratic`, `C103_tight`, `C104_verify`, `C104_alike`, `C104_metadata`, `C104_metadata_alike`, `C105_verdict`, `C105_report`, `C105_warnings`, `C105_problems`, `C105_network`, `C105_network_report`, `C105_metadata`, `C105_labels`, `C105_redundant_refuted`, `C106_accepted`, `C106_problem`, `C106_plans`, `C106_ends`, `C106_again`, `C107_parts`, `C107_whole`, `C107_report`, `C107_repaired`.
