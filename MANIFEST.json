{
 "claims": [
  {
   "property": "C01",
   "status": "proved",
   "theorems": [
    "Verif.C01_token_line",
    "Verif.C01_error_line"
   ],
   "note": "For every reachable tokenizer state, reading or peeking."
  },
  {
   "property": "C02",
   "status": "proved",
   "theorems": [
    "Verif.C02_peeks_change_nothing"
   ],
   "note": ""
  },
  {
   "property": "C03",
   "status": "partial",
   "theorems": [
    "Verif.C03_peek_agrees_partial",
    "Verif.C03_refuted"
   ],
   "note": "Holds except on '<=' and '>='; proved false on every one of those."
  },
  {
   "property": "C04",
   "status": "proved",
   "theorems": [
    "Verif.C04_layout_independence"
   ],
   "note": "Words of ASCII letters, digits, '_' and '-'."
  },
  {
   "property": "C05",
   "status": "partial",
   "theorems": [
    "Verif.C05_progress_partial",
    "Verif.C05_error_progress",
    "Verif.C05_refuted"
   ],
   "note": "Holds for files ending with a blank or parenthesis; proved false for files whose last token is cut off by the end."
  },
  {
   "property": "C06",
   "status": "partial",
   "theorems": [
    "Verif.C06_terminates_partial",
    "Verif.C06_refuted"
   ],
   "note": "Holds with a linear bound for files that are empty or end with a blank or parenthesis; proved false on a file cut off inside a list."
  },
  {
   "property": "C08",
   "status": "proved",
   "theorems": [
    "Verif.C08_colon_words",
    "Verif.C08_plain_words"
   ],
   "note": ""
  },
  {
   "property": "C09",
   "status": "proved",
   "theorems": [
    "Verif.C09_integers",
    "Verif.C09_decimal_snoc",
    "Verif.C09_reals"
   ],
   "note": ""
  },
  {
   "property": "C10",
   "status": "proved",
   "theorems": [
    "Verif.C10_variables_are_names"
   ],
   "note": ""
  },
  {
   "property": "C11",
   "status": "proved",
   "theorems": [
    "Verif.C11_typed_lists",
    "Verif.C11_types",
    "Verif.C11_names"
   ],
   "note": "The same list grammar is used in every place; see C13 and C14."
  },
  {
   "property": "C12",
   "status": "proved",
   "theorems": [
    "Verif.C12_formulas",
    "Verif.C12_everywhere"
   ],
   "note": ""
  },
  {
   "property": "C13",
   "status": "partial",
   "theorems": [
    "Verif.C13_domain_partial",
    "Verif.C16_refuted"
   ],
   "note": "Holds unless a method whose closing parenthesis the parser leaves unread is followed by another block; proved false for all of those."
  },
  {
   "property": "C14",
   "status": "partial",
   "theorems": [
    "Verif.C14_problem_partial",
    "Verif.C14_refuted"
   ],
   "note": "Holds when :goal (or an unclosed task network) comes last; proved false for every problem with blocks after :goal."
  },
  {
   "property": "C15",
   "status": "proved",
   "theorems": [
    "Verif.C15_trailing_text",
    "Verif.C15_any_file",
    "Verif.C15_any_problem",
    "Verif.C15_problem_text"
   ],
   "note": ""
  },
  {
   "property": "C16",
   "status": "partial",
   "theorems": [
    "Verif.C16_represented_partial",
    "Verif.C16_refuted"
   ],
   "note": "False in general; holds when only the last block can be left unclosed."
  },
  {
   "property": "C17",
   "status": "proved",
   "theorems": [
    "Verif.C17_classify"
   ],
   "note": ""
  },
  {
   "property": "C18",
   "status": "proved",
   "theorems": [
    "Verif.C18_names",
    "Verif.C18_orderings"
   ],
   "note": ""
  },
  {
   "property": "C07",
   "status": "partial",
   "theorems": [
    "Verif.C07_no_crash_partial",
    "Verif.C07_exact",
    "Verif.C07_refuted"
   ],
   "note": "Holds for valid UTF-8 files ending with a newline that do not start like a problem and have no 'exists' in an action or method; a panicking file is given for each other case."
  },
  {
   "property": "C19",
   "status": "partial",
   "theorems": [
    "Verif.C19_requirement_partial",
    "Verif.C19_predicate_partial",
    "Verif.C19_task_partial",
    "Verif.C19_action_partial",
    "Verif.C19_method_partial",
    "Verif.C19_parameter_partial",
    "Verif.C19_object_partial",
    "Verif.C19_located",
    "Verif.C19_refuted"
   ],
   "note": "Exact for every kind except constants, for which duplicates are proved to be accepted."
  },
  {
   "property": "C20",
   "status": "proved",
   "theorems": [
    "Verif.C20_cyclic_types"
   ],
   "note": ""
  },
  {
   "property": "C21",
   "status": "proved",
   "theorems": [
    "Verif.C21_compatibility",
    "Verif.C21_observed"
   ],
   "note": ""
  },
  {
   "property": "C22",
   "status": "proved",
   "theorems": [
    "Verif.C22_methods",
    "Verif.C22_initial",
    "Verif.C22_line"
   ],
   "note": ""
  },
  {
   "property": "C23",
   "status": "proved",
   "theorems": [
    "Verif.C23_acceptance"
   ],
   "note": ""
  },
  {
   "property": "C24",
   "status": "proved",
   "theorems": [
    "Verif.C24_acceptance",
    "Verif.C24_needs_domain"
   ],
   "note": ""
  },
  {
   "property": "C25",
   "status": "proved",
   "theorems": [
    "Verif.C25_predicate",
    "Verif.C25_type",
    "Verif.C25_task",
    "Verif.C25_subtask",
    "Verif.C25_parameter",
    "Verif.C25_object"
   ],
   "note": ""
  },
  {
   "property": "C26",
   "status": "partial",
   "theorems": [
    "Verif.C26_predicate",
    "Verif.C26_task_partial",
    "Verif.C26_refuted"
   ],
   "note": "Holds for predicates and subtasks; for the task of a method the two counts are proved to be the wrong way round."
  },
  {
   "property": "C27",
   "status": "partial",
   "theorems": [
    "Verif.C27_domain_partial",
    "Verif.C27_problem_partial",
    "Verif.C27_refuted"
   ],
   "note": "Holds for domains; in problems the incompatible argument and the expected type are right, but the found type is proved wrong for objects and the name is that of the predicate or task."
  },
  {
   "property": "C28",
   "status": "partial",
   "theorems": [
    "Verif.C28_no_crash_partial",
    "Verif.C28_exact",
    "Verif.C28_otherwise_right",
    "Verif.C28_problem",
    "Verif.C28_refuted"
   ],
   "note": "Holds unless a formula of an action or method has an existential quantifier; the condition under which it panics is proved exactly."
  },
  {
   "property": "C29",
   "status": "partial",
   "theorems": [
    "Verif.C29_warnings_partial",
    "Verif.C29_exact",
    "Verif.C29_refuted"
   ],
   "note": "Exact unless a compound task has the name of an action; proved false for such a domain. C29_exact says for all accepted domains what is warned about instead."
  },
  {
   "property": "C30",
   "status": "partial",
   "theorems": [
    "Verif.C30_warnings_partial",
    "Verif.C30_clash_partial",
    "Verif.C30_refuted"
   ],
   "note": "Every warning is right unless it is about a task with the name of an action; not every unrefinable task is warned about, which is proved with a domain. C30_clash_partial covers domains where a compound task has the name of an action."
  },
  {
   "property": "C31",
   "status": "partial",
   "theorems": [
    "Verif.C31_nullables_partial",
    "Verif.C31_bounds_partial",
    "Verif.C31_erasable",
    "Verif.C31_refuted",
    "Verif.C31_clash_refuted"
   ],
   "note": "Every nullable task is reported unless a compound task has the name of an action; others can be too; both exceptions are proved with a domain; exact under a stated condition. C31_bounds_partial bounds the result from both sides for all accepted domains."
  },
  {
   "property": "C32",
   "status": "partial",
   "theorems": [
    "Verif.C32_order_partial",
    "Verif.C32_uniform_partial",
    "Verif.C32_refuted"
   ],
   "note": "Acceptance and errors never depend on the order; the set of warnings can, which is proved with a domain; it does not under a stated condition."
  },
  {
   "property": "C33",
   "status": "proved",
   "theorems": [
    "Verif.C33_same_warnings"
   ],
   "note": ""
  },
  {
   "property": "C34",
   "status": "proved",
   "theorems": [
    "Verif.C34_non_recursive"
   ],
   "note": "Whenever the metadata is computed, in every order."
  },
  {
   "property": "C35",
   "status": "proved",
   "theorems": [
    "Verif.C35_search_order",
    "Verif.C35_exact_nullables"
   ],
   "note": "Whether it is computed at all does not depend on the order either."
  },
  {
   "property": "C36",
   "status": "proved",
   "theorems": [
    "Verif.C36_cycle"
   ],
   "note": "For the printed text."
  },
  {
   "property": "C37",
   "status": "partial",
   "theorems": [
    "Verif.C37_returns_partial",
    "Verif.C37_returns_iff",
    "Verif.C37_hangs",
    "Verif.C37_refuted"
   ],
   "note": "Exact condition proved; false for every accepted domain without compound tasks and for recursive methods with partial orders."
  },
  {
   "property": "C38",
   "status": "partial",
   "theorems": [
    "Verif.C38_counts_partial",
    "Verif.C38_counts_tree",
    "Verif.C38_refuted"
   ],
   "note": "Holds unless blocks follow a method whose closing parenthesis the parser leaves unread; proved false for all of those with an action."
  },
  {
   "property": "C39",
   "status": "proved",
   "theorems": [
    "Verif.C39_recovered",
    "Verif.C39_distinct",
    "Verif.C39_total",
    "Verif.C39_answers"
   ],
   "note": "For the JSON value; its text is C56."
  },
  {
   "property": "C40",
   "status": "partial",
   "theorems": [
    "Verif.C40_text_partial",
    "Verif.C40_domain_text",
    "Verif.C40_line_partial",
    "Verif.C40_refuted",
    "Verif.C40_line_refuted"
   ],
   "note": "Holds for all domains, and for problems that give no typed object to an untyped predicate parameter; proved false for these. The line is missing for task arities and not in front for duplicates."
  },
  {
   "property": "C41",
   "status": "partial",
   "theorems": [
    "Verif.C41_latest_partial",
    "Verif.C41_never",
    "Verif.C41_received",
    "Verif.C41_first_change",
    "Verif.C41_refuted"
   ],
   "note": "Holds for changes with one text each; proved false for several."
  },
  {
   "property": "C42",
   "status": "partial",
   "theorems": [
    "Verif.C42_accepted",
    "Verif.C42_rejected_partial",
    "Verif.C42_reported",
    "Verif.C42_neither",
    "Verif.C42_refuted"
   ],
   "note": "Holds except for duplicates, where the request is proved to panic."
  },
  {
   "property": "C43",
   "status": "partial",
   "theorems": [
    "Verif.C43_line_partial",
    "Verif.C43_converts_partial",
    "Verif.C43_refuted"
   ],
   "note": "Holds except for duplicates, all of which are proved to make the conversion panic, and the case of C40."
  },
  {
   "property": "C44",
   "status": "partial",
   "theorems": [
    "Verif.C44_accepted_partial",
    "Verif.C44_rejected_partial",
    "Verif.C44_outputs_partial",
    "Verif.C44_refuted"
   ],
   "note": "Holds for all readable files unless the text of the error cannot be computed (C40)."
  },
  {
   "property": "C45",
   "status": "proved",
   "theorems": [
    "Verif.C45_grammar"
   ],
   "note": ""
  },
  {
   "property": "C46",
   "status": "proved",
   "theorems": [
    "Verif.C46_syntax_errors",
    "Verif.C46_lexical_errors"
   ],
   "note": ""
  },
  {
   "property": "C47",
   "status": "partial",
   "theorems": [
    "Verif.C47_domain_partial",
    "Verif.C47_goal_partial",
    "Verif.C47_refuted"
   ],
   "note": "Holds for formulas without quantifiers, and for declaration and arity of predicates below quantifiers in domains; proved false otherwise."
  },
  {
   "property": "C48",
   "status": "partial",
   "theorems": [
    "Verif.C48_types_partial",
    "Verif.C48_refuted"
   ],
   "note": "Holds except for constants and for actions and methods without formulas; proved false for these."
  },
  {
   "property": "C49",
   "status": "partial",
   "theorems": [
    "Verif.C49_class_partial",
    "Verif.C49_exact",
    "Verif.C49_plain",
    "Verif.C49_refuted",
    "Verif.C49_order_refuted"
   ],
   "note": "For sequential methods and correctly reported nullable tasks, up to a misjudged prefix that is proved to occur. `C49_exact` gives the class reported for all domains with metadata, accepted or not, also with partial orders (whose prefixes are ignored), wrongly reported nullable tasks and names shared by tasks and actions; by `C49_plain` the two lowest classes are never reported wrongly. `C49_order_refuted`: with constraints in place of :ordered-subtasks the class of the same domain is another one."
  },
  {
   "property": "C50",
   "status": "partial",
   "theorems": [
    "Verif.C50_accepted",
    "Verif.C50_reported",
    "Verif.C50_rejected_partial",
    "Verif.C50_refuted",
    "Verif.C50_unchecked"
   ],
   "note": "Holds except for duplicates (proved to panic), the case of C40, and documents on which the parser does not end or panics."
  },
  {
   "property": "C51",
   "status": "partial",
   "theorems": [
    "Verif.C51_tasks_partial",
    "Verif.C51_actions_partial",
    "Verif.C51_states_partial",
    "Verif.C51_effects_partial",
    "Verif.C51_refuted",
    "Verif.C51_parameter_refuted",
    "Verif.C51_quantifier_refuted"
   ],
   "note": "Holds if no object of the problem has the name of a constant of the domain or of a parameter of the initial task network and no effect has a quantifier; with quantifiers names and numbers of arguments are right, types only if the atoms below them are well-typed. Proved false otherwise."
  },
  {
   "property": "C52",
   "status": "partial",
   "theorems": [
    "Verif.C52_methods",
    "Verif.C52_initial",
    "Verif.C52_rejected_partial",
    "Verif.C52_refuted"
   ],
   "note": "Every accepted network is proved executable. Rejection is right if all labels in constraints are labels of subtasks; labels are not checked, proved by an accepted file with unknown and repeated labels and a rejected file whose subtasks can be executed in any order."
  },
  {
   "property": "C53",
   "status": "proved",
   "theorems": [
    "Verif.C53_terminates",
    "Verif.C53_finite"
   ],
   "note": ""
  },
  {
   "property": "C54",
   "status": "partial",
   "theorems": [
    "Verif.C54_recursive",
    "Verif.C54_left_partial",
    "Verif.C54_left_found",
    "Verif.C54_self_partial",
    "Verif.C54_refuted"
   ],
   "note": "The first part holds without conditions. The second for sequential methods and correctly reported nullable tasks, and for all accepted domains in one direction (left recursion is never missed). The third one holds in one direction under these conditions and is proved false in the other."
  },
  {
   "property": "C55",
   "status": "proved",
   "theorems": [
    "Verif.C55_printed",
    "Verif.C55_outputs",
    "Verif.C55_total"
   ],
   "note": "What the class and the nullable tasks mean is C31, C34, C36, C49 and C54."
  },
  {
   "property": "C56",
   "status": "partial",
   "theorems": [
    "Verif.C56_ok_partial",
    "Verif.C56_json_partial",
    "Verif.C56_recovered_partial",
    "Verif.C56_distinct_partial",
    "Verif.C56_file_partial",
    "Verif.C56_error_partial",
    "Verif.C56_stdout_refuted"
   ],
   "note": "Missing: standard output as a whole is never JSON, because of the line `[Ok]` (C56_stdout_refuted). The text of real numbers is a parameter with the contract that it is a JSON number with a fraction or exponent; the pretty printer of serde_json is modelled from its documentation."
  },
  {
   "property": "C57",
   "status": "partial",
   "theorems": [
    "Verif.C57_answers_partial",
    "Verif.C57_latest_partial",
    "Verif.C57_origin",
    "Verif.C57_once",
    "Verif.C57_refuted"
   ],
   "note": "Holds for documents that were not saved without their text before the request; the other case is refuted by an execution. `C57_origin` holds for all documents: answers are for a text of the document that was sent or saved before the request, if not always the last one."
  },
  {
   "property": "C58",
   "status": "partial",
   "theorems": [
    "Verif.C58_bounded",
    "Verif.C58_answered",
    "Verif.C58_crash",
    "Verif.C58_served_partial",
    "Verif.C58_refuted",
    "Verif.C58_refuted_save",
    "Verif.C58_blocked"
   ],
   "note": "Fails for documents whose analysis panics (duplicates) or does not end (cut-off files), and for saved files that cannot be read: refuted for all such documents. `C58_served_partial`: otherwise every request is answered, also with files that change meanwhile."
  },
  {
   "property": "C59",
   "status": "proved",
   "theorems": [
    "Verif.C59_trees",
    "Verif.C59_domain",
    "Verif.C59_problem",
    "Verif.C59_warnings",
    "Verif.C59_metadata_refuted"
   ],
   "note": "`SameText` is built from the lexical specification `Written` of C04; acceptance is compared for any two hash orders. `C59_warnings`: also the same tasks are warned about. `C59_metadata_refuted` shows why the metadata is not part of the claim; see C72."
  },
  {
   "property": "C60",
   "status": "proved",
   "theorems": [
    "Verif.C60_domain",
    "Verif.C60_problem",
    "Verif.C60_domain_blocks",
    "Verif.C60_problem_blocks",
    "Verif.C60_refuted"
   ],
   "note": "The versions on blocks inherit the condition of C13/C14 that blocks whose closing parenthesis the parser leaves unread come last; for problems no block may override another one."
  },
  {
   "property": "C61",
   "status": "proved",
   "theorems": [
    "Verif.C61_domain",
    "Verif.C61_problem"
   ],
   "note": "`coreDomain` and `coreProblem` erase these parts; the tree of a problem does not even contain its name and the name of its domain."
  },
  {
   "property": "C62",
   "status": "proved",
   "theorems": [
    "Verif.C62_domain",
    "Verif.C62_problem",
    "Verif.C62_refuted"
   ],
   "note": "Extensions are compared up to lines, and the order of the declarations may change too."
  },
  {
   "property": "C63",
   "status": "proved",
   "theorems": [
    "Verif.C63_first_wrong_token",
    "Verif.C63_not_parsed"
   ],
   "note": "Proved for every parser function; the completion is written out as a file that is parsed."
  },
  {
   "property": "C64",
   "status": "proved",
   "theorems": [
    "Verif.C64_first_unreadable"
   ],
   "note": ""
  },
  {
   "property": "C65",
   "status": "proved",
   "theorems": [
    "Verif.C65_wrong_token",
    "Verif.C65_syntax_error",
    "Verif.C65_lexical_error",
    "Verif.C65_panic"
   ],
   "note": "FirstWrong, CanEnd and Unreadable are defined over the token stream of the file and the set of parsed files only. Uniqueness of the first wrong token and of the unreadable place is part of the proof."
  },
  {
   "property": "C66",
   "status": "proved",
   "theorems": [
    "Verif.C66_hangs",
    "Verif.C66_four_cases"
   ],
   "note": "The (only if) direction compares the file with a second file that has the same tokens and ends with a newline, on which parsing ends by C06. That such files exist is shown by C06_refuted."
  },
  {
   "property": "C67",
   "status": "proved",
   "theorems": [
    "Verif.C67_token",
    "Verif.C67_error",
    "Verif.C67_no_overflow",
    "Verif.C67_release",
    "Verif.C67_release_session",
    "Verif.C67_session",
    "Verif.C67_debug_overflow",
    "Verif.C67_release_wraps",
    "Verif.C67_early_look"
   ],
   "note": "The cursor is a natural number (it never exceeds the length of the file plus one); the native stack used by the nested calls for comments is not modelled, only their number is bounded."
  },
  {
   "property": "C68",
   "status": "proved",
   "theorems": [
    "Verif.C68_crash",
    "Verif.C68_hangs",
    "Verif.C68_otherwise"
   ],
   "note": "An equivalence in both directions, in terms of the file texts (C65, C66), the parsed domain and the specification of right domains."
  },
  {
   "property": "C69",
   "status": "partial",
   "theorems": [
    "Verif.C69_names_partial",
    "Verif.C69_refuted",
    "Verif.C69_only_names",
    "Verif.C69_variables",
    "Verif.C69_readable",
    "Verif.C69_ascii"
   ],
   "note": "Holds exactly for the words each byte of which is a letter, digit or mark of Latin-1; proved false for all others, with an arithmetic description of the characters concerned (all of Hebrew, '\u00e4', '\u00e9', '\u00df', ...)."
  },
  {
   "property": "C70",
   "status": "partial",
   "theorems": [
    "Verif.C70_save_partial",
    "Verif.C70_save_refuted",
    "Verif.C70_blocked",
    "Verif.C70_problem",
    "Verif.C70_other",
    "Verif.C70_folder",
    "Verif.C70_panics"
   ],
   "note": "Requests hold in full, with an exact characterisation of the panics. Saving holds for URLs without escapes; with an escape such as %20 another file is read (did_save takes Url::path undecoded), so the server panics or stores the wrong text (C70_save_refuted)."
  },
  {
   "property": "C71",
   "status": "partial",
   "theorems": [
    "Verif.C71_checked_partial",
    "Verif.C71_first",
    "Verif.C71_disk",
    "Verif.C71_name",
    "Verif.C71_refuted"
   ],
   "note": "Holds for folders with one domain (C71_checked_partial). With several, the one listed first counts (C71_first), so the claim is false and the answer depends on the listing order (C71_refuted). The domain named in the problem is not recorded (C71_name), and the text of a domain that is open in the editor is not used (C71_disk)."
  },
  {
   "property": "C72",
   "status": "partial",
   "theorems": [
    "Verif.C72_metadata_partial",
    "Verif.C72_total_order",
    "Verif.C72_layout",
    "Verif.C59_metadata_refuted"
   ],
   "note": "Partial: labels of partially ordered subtasks have to be renamed such that it is kept which labels occur inside which; get_prefix compares labels with str::contains, so the claim is false without this (`C59_metadata_refuted`: renaming the label j to ii makes get_metadata run forever, for every hash order). Full for files with other layout and the same names (`C72_layout`), and for totally ordered methods (`C72_total_order`)."
  },
  {
   "property": "C73",
   "status": "partial",
   "theorems": [
    "Verif.C73_verify_partial",
    "Verif.C73_metadata_partial",
    "Verif.C73_metadata_least",
    "Verif.C73_refuted"
   ],
   "note": "The budget of the model bounds the iterations of each loop. C73_verify_partial: for files that end with a delimiter, verify needs a budget of at most the square of (length of the domain file + 2) plus the length of the problem file. C73_metadata_partial: get_metadata, on accepted domains with a compound task and sequential recursive methods, returns with such a budget exactly if the budget is at least the number of descents, i.e. of chains of methods each for a subtask of the one before, no task twice. C73_refuted: this number is exponential: for each n there is an accepted, non-recursive domain file of length at most 250 (n+2)^2 on which get_metadata has not finished after 2^n - 1 iterations, in any order. Missing for verify: files whose last character is not a delimiter, where the lexer does not stop (C06)."
  },
  {
   "property": "C74",
   "status": "partial",
   "theorems": [
    "Verif.C74_parens_partial",
    "Verif.C74_prefix",
    "Verif.C74_height",
    "Verif.C74_nesting_partial",
    "Verif.C74_refuted",
    "Verif.C74_unbounded"
   ],
   "note": "Proved: for every file, the depth is at most the number of its opening parentheses (C74_parens_partial, C74_prefix for any prefix of the execution); for parsed files it is the nesting of the formulas in the result plus one or two (C74_height); for files that follow the grammar it is at most the nesting of the parentheses plus one (C74_nesting_partial). Refuted as stated: `(not )` takes the closing parenthesis for its operand, so accepted domains with never more than four open parentheses recurse arbitrarily deep (C74_refuted). Even files that follow the grammar have no bound (C74_unbounded), there is no limit in the code. The size of the native stack is not modelled."
  },
  {
   "property": "C75",
   "status": "proved",
   "theorems": [
    "Verif.C75_domain",
    "Verif.C75_problem",
    "Verif.C75_domain_first",
    "Verif.C75_accepted",
    "Verif.C75_crash"
   ],
   "note": "`domainChecks` and `problemChecks` list the checks by what they find, in terms of the declarations of the file; both directions are proved, so that the error does not depend on the hash order."
  },
  {
   "property": "C76",
   "status": "proved",
   "theorems": [
    "Verif.C76_computed",
    "Verif.C76_metadata",
    "Verif.C76_possible",
    "Verif.C76_uniform",
    "Verif.C76_warnings"
   ],
   "note": "The nullable tasks and warnings of domains that are not uniform depend on the hash order even for one file (C32_refuted); therefore the last part is restricted to uniform domains; C76_possible says for all accepted domains that the same results are possible."
  },
  {
   "property": "C77",
   "status": "proved",
   "theorems": [
    "Verif.C77_recursive",
    "Verif.C77_class",
    "Verif.C77_uniform",
    "Verif.C77_refuted"
   ],
   "note": "C77_refuted: for a domain that is not uniform, adding an empty method removes a task from the nullable ones and adds a warning, because compute_nullables wrongly reported it before."
  },
  {
   "property": "C78",
   "status": "proved",
   "theorems": [
    "Verif.C78_domain",
    "Verif.C78_problem"
   ],
   "note": "A symbol without type may only be replaced by one without type: typed arguments are not accepted for untyped parameters (nor the converse), see C21."
  },
  {
   "property": "C79",
   "status": "proved",
   "theorems": [
    "Verif.C79_problem",
    "Verif.C79_refuted"
   ],
   "note": "C79_refuted: without the condition on names the claim is false; an object with the name of a constant hides the constant, so that existing facts are rejected."
  },
  {
   "property": "C80",
   "status": "proved",
   "theorems": [
    "Verif.C80_domain",
    "Verif.C80_problem",
    "Verif.C80_refuted"
   ],
   "note": "C80_refuted: without the condition on parents the claim is false; the removal of an unused type `a - b` makes `b` unknown if `b` is not declared itself."
  },
  {
   "property": "C81",
   "status": "proved",
   "theorems": [
    "Verif.C81_domain_shape",
    "Verif.C81_problem_shape",
    "Verif.C81_domain",
    "Verif.C81_problem",
    "Verif.C81_domain_lenient",
    "Verif.C81_problem_lenient",
    "Verif.C81_domain_verdict",
    "Verif.C81_problem_verdict",
    "Verif.C81_domain_file",
    "Verif.C81_problem_file",
    "Verif.C81_normal_form",
    "Verif.C81_refuted"
   ],
   "note": "`readDomain` and `readProblem` (Spec/Printing.lean) state the exception exactly; C81_refuted: without it the claim is false."
  },
  {
   "property": "C82",
   "status": "proved",
   "theorems": [
    "Verif.C82_outcome",
    "Verif.C82_metadata",
    "Verif.C82_warnings",
    "Verif.C82_skeleton_file",
    "Verif.C82_propositional",
    "Verif.C82_orderings_needed"
   ],
   "note": "C82_orderings_needed: the orderings cannot be removed from the skeleton. C82_propositional assumes that the names consist of letters, digits, `_` and `-` (`Utterable`), as C81 does."
  },
  {
   "property": "C83",
   "status": "proved",
   "theorems": [
    "Verif.C83_meaning",
    "Verif.C83_domain",
    "Verif.C83_problem",
    "Verif.C83_metadata",
    "Verif.C83_warnings",
    "Verif.C83_dual_refuted",
    "Verif.C83_meaning_refuted",
    "Verif.C83_added_refuted"
   ],
   "note": "C83_dual_refuted, C83_meaning_refuted, C83_added_refuted: the exceptions are necessary."
  },
  {
   "property": "C84",
   "status": "proved",
   "theorems": [
    "Verif.C84_domain",
    "Verif.C84_problem",
    "Verif.C84_nullables",
    "Verif.C84_warnings",
    "Verif.C84_recursive",
    "Verif.C84_nullables_uniform",
    "Verif.C84_warnings_uniform",
    "Verif.C84_possible",
    "Verif.C84_class_refuted",
    "Verif.C84_listing_refuted"
   ],
   "note": "C84_class_refuted, C84_listing_refuted: the exceptions are necessary."
  },
  {
   "property": "C85",
   "status": "proved",
   "theorems": [
    "Verif.C85_promote",
    "Verif.C85_demote",
    "Verif.C85_unused",
    "Verif.C85_type_refuted",
    "Verif.C85_parameter_refuted",
    "Verif.C85_constant_refuted"
   ],
   "note": "The last three theorems show that the conditions are needed."
  },
  {
   "property": "C86",
   "status": "partial",
   "theorems": [
    "Verif.C86_accepted",
    "Verif.C86_part",
    "Verif.C86_recursive",
    "Verif.C86_class",
    "Verif.C86_uniform",
    "Verif.C86_refuted"
   ],
   "note": "Acceptance and being recursive hold for all parts; nullable tasks, warnings and classes for uniform parts. C86_refuted shows that the latter fails in general because the loop of compute_nullables stops for all tasks at once."
  },
  {
   "property": "C87",
   "status": "proved",
   "theorems": [
    "Verif.C87_crash",
    "Verif.C87_endless",
    "Verif.C87_cases",
    "Verif.C87_determined",
    "Verif.C87_accepted",
    "Verif.C87_order",
    "Verif.C87_not_domain",
    "Verif.C87_json_crash",
    "Verif.C87_json_endless",
    "Verif.C87_instance"
   ],
   "note": "Together with C37_returns_iff this gives the outcome for every file; only for domains with both a crashing and a looping subtask the outcome is left open between the two, and C87_order shows that it depends on the hash order there."
  },
  {
   "property": "C88",
   "status": "proved",
   "theorems": [
    "Verif.C88_error",
    "Verif.C88_warning",
    "Verif.C88_alike",
    "Verif.C88_exceptions",
    "Verif.C88_command"
   ],
   "note": "The printed form of a floating point number (`f64` Display, part of `Env`) is assumed to have no quotation mark; C88_exceptions shows that the first two exceptions occur."
  },
  {
   "property": "C89",
   "status": "proved",
   "theorems": [
    "Verif.C89_exact",
    "Verif.C89_determined",
    "Verif.C89_bounded",
    "Verif.C89_unbounded"
   ],
   "note": "For debug builds files with fewer than 2^32 - 1 newlines (beyond that C67_debug_overflow). Counts calls in the source; whether a compiler turns the call in line 129 into a jump is not modelled."
  },
  {
   "property": "C90",
   "status": "proved",
   "theorems": [
    "Verif.C90_view",
    "Verif.C90_same",
    "Verif.C90_exact"
   ],
   "note": "The converse half of C90_exact supposes that the names in the domains are ASCII words and that the parameters of actions have known types (the analyser does not check the latter for actions without precondition and effect). The warnings of an accepted problem are those of its domain (C33)."
  },
  {
   "property": "C91",
   "status": "proved",
   "theorems": [
    "Verif.C91_domain",
    "Verif.C91_problem",
    "Verif.C91_ends",
    "Verif.C91_front",
    "Verif.C91_insert",
    "Verif.C91_renamed",
    "Verif.C91_renamed_problem"
   ],
   "note": "For renamed files the statement is about files that are parsed (C59 has the verdicts, C91 adds error, warnings and lines)."
  },
  {
   "property": "C92",
   "status": "proved",
   "theorems": [
    "Verif.C92_domain",
    "Verif.C92_problem",
    "Verif.C92_lines",
    "Verif.C92_metadata",
    "Verif.C92_blocks",
    "Verif.C92_regrouped",
    "Verif.C92_problem_blocks",
    "Verif.C92_types",
    "Verif.C92_same_sort"
   ],
   "note": "C60 has the verdicts for every order of the declarations; C92 has the complete answers if the order within each sort is kept. The block theorems assume, like C13 and C14, that a block whose text stops before its closing parenthesis is the last one."
  },
  {
   "property": "C93",
   "status": "proved",
   "theorems": [
    "Verif.C93_parsed",
    "Verif.C93_never",
    "Verif.C93_rejected",
    "Verif.C93_reported",
    "Verif.C93_named",
    "Verif.C93_problem",
    "Verif.C93_complete",
    "Verif.C93_cases",
    "Verif.C93_flat"
   ],
   "note": "Keywords that are not supported (`:metric`, `:durative-action`, ..) are lexical errors, see C08 and C65. Behind a complete definition nothing is read (C93_complete)."
  },
  {
   "property": "C94",
   "status": "proved",
   "theorems": [
    "Verif.C94_right",
    "Verif.C94_all",
    "Verif.C94_repair",
    "Verif.C94_progress",
    "Verif.C94_answer",
    "Verif.C94_not_all"
   ],
   "note": "C94_not_all shows the limit: after `(p` a closing parenthesis would be right as well, and the message asks for an identifier only. Whether the file that results is semantically accepted is not part of the claim."
  },
  {
   "property": "C95",
   "status": "partial",
   "theorems": [
    "Verif.C95_accepted_partial",
    "Verif.C95_rejected",
    "Verif.C95_zero",
    "Verif.C95_crash",
    "Verif.C95_codes",
    "Verif.C95_domain",
    "Verif.C95_usual",
    "Verif.C95_told",
    "Verif.C95_unreadable",
    "Verif.C95_metadata",
    "Verif.C95_json",
    "Verif.C95_refuted"
   ],
   "note": "Holds: accepted files give 0, crashes give 101, and there are no other codes. Fails for all rejected files whose error is printed, and for unreadable files (C95_rejected, C95_domain, C95_unreadable): they give 0. The last line of standard output tells the difference (C95_told). The exit codes of clap for wrong arguments and of a stack overflow are not modelled."
  },
  {
   "property": "C96",
   "status": "proved",
   "theorems": [
    "Verif.C96_domain",
    "Verif.C96_domain_file",
    "Verif.C96_domain_ok",
    "Verif.C96_verdict",
    "Verif.C96_problem",
    "Verif.C96_problem_file",
    "Verif.C96_problem_ok"
   ],
   "note": "The same error (names, types, numbers) or crash is reported, on the lines of the file the excerpt stands in. The files with the excerpts exist if the names of the domain consist of letters, digits, `_` and `-` (C96_domain_file, C96_problem_file). C96_problem keeps the whole domain."
  },
  {
   "property": "C97",
   "status": "proved",
   "theorems": [
    "Verif.C97_verdict",
    "Verif.C97_report",
    "Verif.C97_metadata",
    "Verif.C97_problems",
    "Verif.C97_network",
    "Verif.C97_network_report",
    "Verif.C97_capture"
   ],
   "note": "C97_report and C97_network_report: the same kind of error on the corresponding lines, with the variable in it renamed. Labels of subtasks are not variables (see C72). C97_capture: files that differ in the name of a parameter only, one accepted and one rejected, because the new name is that of a constant."
  },
  {
   "property": "C98",
   "status": "proved",
   "theorems": [
    "Verif.C98_count",
    "Verif.C98_accepted",
    "Verif.C98_header",
    "Verif.C98_reported",
    "Verif.C98_after_action",
    "Verif.C98_after_method",
    "Verif.C98_possible",
    "Verif.C98_impossible"
   ],
   "note": "Faulty is meant in the sense of ActionOk and MethodOk, the specification of C23. C98_reported gives the report as the first finding of the checks of that one declaration (C75). C98_possible is for domains whose tokens can be spelled (C81)."
  },
  {
   "property": "C99",
   "status": "proved",
   "theorems": [
    "Verif.C99_domain",
    "Verif.C99_line",
    "Verif.C99_answer",
    "Verif.C99_problem",
    "Verif.C99_problem_parts",
    "Verif.C99_problem_iff",
    "Verif.C99_problem_line",
    "Verif.C99_problem_accepted",
    "Verif.C99_hangs",
    "Verif.C99_panics"
   ],
   "note": "C99_problem_accepted, C99_hangs and C99_panics are the negative part of the claim, with concrete files."
  },
  {
   "property": "C100",
   "status": "proved",
   "theorems": [
    "Verif.C100_exact",
    "Verif.C100_domain",
    "Verif.C100_metadata",
    "Verif.C100_only_types",
    "Verif.C100_other",
    "Verif.C100_problem_exact",
    "Verif.C100_problem",
    "Verif.C100_problem_only_types",
    "Verif.C100_partly"
   ],
   "note": "C100_partly: removing a single type is not enough, an accepted domain can then be rejected, because typed and untyped symbols never fit (C21)."
  },
  {
   "property": "C101",
   "status": "proved",
   "theorems": [
    "Verif.C101_methods",
    "Verif.C101_metadata",
    "Verif.C101_network",
    "Verif.C101_converse"
   ],
   "note": "Actions are left out because their parameters are what callers see (C78, C90)."
  },
  {
   "property": "C102",
   "status": "proved",
   "theorems": [
    "Verif.C102_domain",
    "Verif.C102_problem",
    "Verif.C102_decompositions",
    "Verif.C102_metadata",
    "Verif.C102_warnings",
    "Verif.C102_types_needed",
    "Verif.C102_warnings_refuted"
   ],
   "note": "C102_domain and C102_problem are equivalences, so they also say that the rest can be unfolded again. Nothing is claimed about the class of recursive domains. C102_types_needed, C102_warnings_refuted: the conditions are necessary."
  },
  {
   "property": "C103",
   "status": "proved",
   "theorems": [
    "Verif.C103_length",
    "Verif.C103_work",
    "Verif.C103_quadratic",
    "Verif.C103_tight"
   ],
   "note": "The texts are modelled byte by byte; `work` counts the bytes written to the result and to the intermediate strings of format!, collect and join (not the bytes moved when a string grows). How f64 is printed is not modelled, hence the assumption `ShortReals`. C103_tight shows that the texts are quadratic work in an accepted file; the result is unused, so the line could be deleted."
  },
  {
   "property": "C104",
   "status": "proved",
   "theorems": [
    "Verif.C104_verify",
    "Verif.C104_alike",
    "Verif.C104_metadata",
    "Verif.C104_metadata_alike"
   ],
   "note": "Stronger than C88_command, which has the lines one by one: here the lines of a stream are joined and the reader (Spec/Streams.lean) has to find where they end. Files that cannot be read are not considered (their error text comes from the operating system). The method printed last in a cycle is not shown by the code."
  },
  {
   "property": "C105",
   "status": "proved",
   "theorems": [
    "Verif.C105_verdict",
    "Verif.C105_report",
    "Verif.C105_warnings",
    "Verif.C105_problems",
    "Verif.C105_network",
    "Verif.C105_network_report",
    "Verif.C105_metadata",
    "Verif.C105_labels",
    "Verif.C105_renamed",
    "Verif.C105_closure",
    "Verif.C105_redundant_refuted"
   ],
   "note": "C84 has the verdict and C72 one renaming for the whole file; here labels are renamed method by method and the class of recursion with its cycle is compared. Refuted beyond that: C105_redundant_refuted (a redundant constraint makes get_metadata crash), C59_metadata_refuted (without the condition on labels that occur inside others get_metadata need not return)."
  },
  {
   "property": "C106",
   "status": "proved",
   "theorems": [
    "Verif.C106_accepted",
    "Verif.C106_problem",
    "Verif.C106_plans",
    "Verif.C106_ends",
    "Verif.C106_again"
   ],
   "note": "weed_spec: a domain from which first one and then another task is removed, until there are no warnings. Plans are those of Spec/Weeding.lean: decompositions with well-typed parameters, without orderings and preconditions."
  },
  {
   "property": "C107",
   "status": "proved",
   "theorems": [
    "Verif.C107_parts",
    "Verif.C107_whole",
    "Verif.C107_report",
    "Verif.C107_repaired"
   ],
   "note": "Instances: slice_report, slice_whole, slice_mended."
  }
 ]
}
