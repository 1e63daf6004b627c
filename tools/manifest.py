"""Writes MANIFEST.json from the table below."""
import json

CLAIMS = [
    ("C01", "proved", ["C01_token_line", "C01_error_line"], "For every reachable tokenizer state, reading or peeking."),
    ("C02", "proved", ["C02_peeks_change_nothing"], ""),
    ("C03", "partial", ["C03_peek_agrees_partial", "C03_refuted"],
     "Holds except on '<=' and '>='; proved false on every one of those."),
    ("C04", "proved", ["C04_layout_independence"], "Words of ASCII letters, digits, '_' and '-'."),
    ("C05", "partial", ["C05_progress_partial", "C05_error_progress", "C05_refuted"],
     "Holds for files ending with a blank or parenthesis; proved false for files whose last token is cut off by the end."),
    ("C06", "partial", ["C06_terminates_partial", "C06_refuted"],
     "Holds with a linear bound for files that are empty or end with a blank or parenthesis; proved false on a file cut off inside a list."),
    ("C08", "proved", ["C08_colon_words", "C08_plain_words"], ""),
    ("C09", "proved", ["C09_integers", "C09_decimal_snoc", "C09_reals"], ""),
    ("C10", "proved", ["C10_variables_are_names"], ""),
    ("C11", "proved", ["C11_typed_lists", "C11_types", "C11_names"], "The same list grammar is used in every place; see C13 and C14."),
    ("C12", "proved", ["C12_formulas", "C12_everywhere"], ""),
    ("C13", "partial", ["C13_domain_partial", "C16_refuted"],
     "Holds unless a method whose closing parenthesis the parser leaves unread is followed by another block; proved false for all of those."),
    ("C14", "partial", ["C14_problem_partial", "C14_refuted"],
     "Holds when :goal (or an unclosed task network) comes last; proved false for every problem with blocks after :goal."),
    ("C15", "proved", ["C15_trailing_text", "C15_any_file", "C15_any_problem", "C15_problem_text"], ""),
    ("C16", "partial", ["C16_represented_partial", "C16_refuted"], "False in general; holds when only the last block can be left unclosed."),
    ("C17", "proved", ["C17_classify"], ""),
    ("C18", "proved", ["C18_names", "C18_orderings"], ""),
    ("C07", "partial", ["C07_no_crash_partial", "C07_exact", "C07_refuted"],
     "Holds for valid UTF-8 files ending with a newline that do not start like a problem and have no 'exists' in an action or method; a panicking file is given for each other case."),
    ("C19", "partial", ["C19_requirement_partial", "C19_predicate_partial", "C19_task_partial", "C19_action_partial",
      "C19_method_partial", "C19_parameter_partial", "C19_object_partial", "C19_located", "C19_refuted"],
     "Exact for every kind except constants, for which duplicates are proved to be accepted."),
    ("C20", "proved", ["C20_cyclic_types"], ""),
    ("C21", "proved", ["C21_compatibility", "C21_observed"], ""),
    ("C22", "proved", ["C22_methods", "C22_initial", "C22_line"], ""),
    ("C23", "proved", ["C23_acceptance"], ""),
    ("C24", "proved", ["C24_acceptance", "C24_needs_domain"], ""),
    ("C25", "proved", ["C25_predicate", "C25_type", "C25_task", "C25_subtask", "C25_parameter", "C25_object"], ""),
    ("C26", "partial", ["C26_predicate", "C26_task_partial", "C26_refuted"],
     "Holds for predicates and subtasks; for the task of a method the two counts are proved to be the wrong way round."),
    ("C27", "partial", ["C27_domain_partial", "C27_problem_partial", "C27_refuted"],
     "Holds for domains; in problems the incompatible argument and the expected type are right, but the found type is proved wrong for objects and the name is that of the predicate or task."),
    ("C28", "partial", ["C28_no_crash_partial", "C28_exact", "C28_otherwise_right", "C28_problem", "C28_refuted"],
     "Holds unless a formula of an action or method has an existential quantifier; the condition under which it panics is proved exactly."),
    ("C29", "partial", ["C29_warnings_partial", "C29_exact", "C29_refuted"],
     "Exact unless a compound task has the name of an action; proved false for such a domain. C29_exact says for all accepted domains what is warned about instead."),
    ("C30", "partial", ["C30_warnings_partial", "C30_clash_partial", "C30_refuted"],
     "Every warning is right unless it is about a task with the name of an action; not every unrefinable task is warned about, which is proved with a domain. C30_clash_partial covers domains where a compound task has the name of an action."),
    ("C31", "partial", ["C31_nullables_partial", "C31_bounds_partial", "C31_erasable", "C31_refuted", "C31_clash_refuted"],
     "Every nullable task is reported unless a compound task has the name of an action; others can be too; both exceptions are proved with a domain; exact under a stated condition. C31_bounds_partial bounds the result from both sides for all accepted domains."),
    ("C32", "partial", ["C32_order_partial", "C32_uniform_partial", "C32_refuted"],
     "Acceptance and errors never depend on the order; the set of warnings can, which is proved with a domain; it does not under a stated condition."),
    ("C33", "proved", ["C33_same_warnings"], ""),
    ("C34", "proved", ["C34_non_recursive"], "Whenever the metadata is computed, in every order."),
    ("C35", "proved", ["C35_search_order", "C35_exact_nullables"], "Whether it is computed at all does not depend on the order either."),
    ("C36", "proved", ["C36_cycle"], "For the printed text."),
    ("C37", "partial", ["C37_returns_partial", "C37_returns_iff", "C37_hangs", "C37_refuted"],
     "Exact condition proved; false for every accepted domain without compound tasks and for recursive methods with partial orders."),
    ("C38", "partial", ["C38_counts_partial", "C38_counts_tree", "C38_refuted"],
     "Holds unless blocks follow a method whose closing parenthesis the parser leaves unread; proved false for all of those with an action."),
    ("C39", "proved", ["C39_recovered", "C39_distinct", "C39_total", "C39_answers"], "For the JSON value; its text is C56."),
    ("C40", "partial", ["C40_text_partial", "C40_domain_text", "C40_line_partial", "C40_refuted", "C40_line_refuted"],
     "Holds for all domains, and for problems that give no typed object to an untyped predicate parameter; proved false for these. The line is missing for task arities and not in front for duplicates."),
    ("C41", "partial", ["C41_latest_partial", "C41_never", "C41_received", "C41_first_change", "C41_refuted"],
     "Holds for changes with one text each; proved false for several."),
    ("C42", "partial", ["C42_accepted", "C42_rejected_partial", "C42_reported", "C42_neither", "C42_refuted"],
     "Holds except for duplicates, where the request is proved to panic."),
    ("C43", "partial", ["C43_line_partial", "C43_converts_partial", "C43_refuted"],
     "Holds except for duplicates, all of which are proved to make the conversion panic, and the case of C40."),
    ("C44", "partial", ["C44_accepted_partial", "C44_rejected_partial", "C44_outputs_partial", "C44_refuted"],
     "Holds for all readable files unless the text of the error cannot be computed (C40)."),
    ("C45", "proved", ["C45_grammar"], ""),
    ("C46", "proved", ["C46_syntax_errors", "C46_lexical_errors"], ""),
    ("C47", "partial", ["C47_domain_partial", "C47_goal_partial", "C47_refuted"],
     "Holds for formulas without quantifiers, and for declaration and arity of predicates below quantifiers in domains; proved false otherwise."),
    ("C48", "partial", ["C48_types_partial", "C48_refuted"],
     "Holds except for constants and for actions and methods without formulas; proved false for these."),
    ("C49", "partial", ["C49_class_partial", "C49_exact", "C49_plain", "C49_refuted", "C49_order_refuted"],
     "For sequential methods and correctly reported nullable tasks, up to a misjudged prefix that is proved to occur. `C49_exact` gives the class reported for all domains with metadata, accepted or not, also with partial orders (whose prefixes are ignored), wrongly reported nullable tasks and names shared by tasks and actions; by `C49_plain` the two lowest classes are never reported wrongly. `C49_order_refuted`: with constraints in place of :ordered-subtasks the class of the same domain is another one."),
    ("C50", "partial", ["C50_accepted", "C50_reported", "C50_rejected_partial", "C50_refuted", "C50_unchecked"],
     "Holds except for duplicates (proved to panic), the case of C40, and documents on which the parser does not end or panics."),
    ("C51", "partial", ["C51_tasks_partial", "C51_actions_partial", "C51_states_partial", "C51_effects_partial", "C51_refuted", "C51_parameter_refuted", "C51_quantifier_refuted"],
     "Holds if no object of the problem has the name of a constant of the domain or of a parameter of the initial task network and no effect has a quantifier; with quantifiers names and numbers of arguments are right, types only if the atoms below them are well-typed. Proved false otherwise."),
    ("C52", "partial", ["C52_methods", "C52_initial", "C52_rejected_partial", "C52_refuted"],
     "Every accepted network is proved executable. Rejection is right if all labels in constraints are labels of subtasks; labels are not checked, proved by an accepted file with unknown and repeated labels and a rejected file whose subtasks can be executed in any order."),
    ("C53", "proved", ["C53_terminates", "C53_finite"],
     ""),
    ("C54", "partial", ["C54_recursive", "C54_left_partial", "C54_left_found", "C54_self_partial", "C54_refuted"],
     "The first part holds without conditions. The second for sequential methods and correctly reported nullable tasks, and for all accepted domains in one direction (left recursion is never missed). The third one holds in one direction under these conditions and is proved false in the other."),
    ("C55", "proved", ["C55_printed", "C55_outputs", "C55_total"],
     "What the class and the nullable tasks mean is C31, C34, C36, C49 and C54."),
    ("C56", "partial", ["C56_ok_partial", "C56_json_partial", "C56_recovered_partial", "C56_distinct_partial", "C56_file_partial", "C56_error_partial", "C56_stdout_refuted"],
     "Missing: standard output as a whole is never JSON, because of the line `[Ok]` (C56_stdout_refuted). The text of real numbers is a parameter with the contract that it is a JSON number with a fraction or exponent; the pretty printer of serde_json is modelled from its documentation."),
    ("C57", "partial", ["C57_answers_partial", "C57_latest_partial", "C57_origin", "C57_once", "C57_refuted"],
     "Holds for documents that were not saved without their text before the request; the other case is refuted by an execution. `C57_origin` holds for all documents: answers are for a text of the document that was sent or saved before the request, if not always the last one."),
    ("C58", "partial", ["C58_bounded", "C58_answered", "C58_crash", "C58_served_partial", "C58_refuted", "C58_refuted_save", "C58_blocked"],
     "Fails for documents whose analysis panics (duplicates) or does not end (cut-off files), and for saved files that cannot be read: refuted for all such documents. `C58_served_partial`: otherwise every request is answered, also with files that change meanwhile."),
    ("C59", "proved", ["C59_trees", "C59_domain", "C59_problem", "C59_warnings", "C59_metadata_refuted"],
     "`SameText` is built from the lexical specification `Written` of C04; acceptance is compared for any two hash orders. `C59_warnings`: also the same tasks are warned about. `C59_metadata_refuted` shows why the metadata is not part of the claim; see C72."),
    ("C60", "proved", ["C60_domain", "C60_problem", "C60_domain_blocks", "C60_problem_blocks", "C60_refuted"],
     "The versions on blocks inherit the condition of C13/C14 that blocks whose closing parenthesis the parser leaves unread come last; for problems no block may override another one."),
    ("C61", "proved", ["C61_domain", "C61_problem"],
     "`coreDomain` and `coreProblem` erase these parts; the tree of a problem does not even contain its name and the name of its domain."),
    ("C62", "proved", ["C62_domain", "C62_problem", "C62_refuted"],
     "Extensions are compared up to lines, and the order of the declarations may change too."),
    ("C63", "proved", ["C63_first_wrong_token", "C63_not_parsed"],
     "Proved for every parser function; the completion is written out as a file that is parsed."),
    ("C64", "proved", ["C64_first_unreadable"],
     ""),
    ("C65", "proved", ["C65_wrong_token", "C65_syntax_error", "C65_lexical_error", "C65_panic"],
     "FirstWrong, CanEnd and Unreadable are defined over the token stream of the file and the set of parsed files only. Uniqueness of the first wrong token and of the unreadable place is part of the proof."),
    ("C66", "proved", ["C66_hangs", "C66_four_cases"],
     "The (only if) direction compares the file with a second file that has the same tokens and ends with a newline, on which parsing ends by C06. That such files exist is shown by C06_refuted."),
    ("C67", "proved", ["C67_token", "C67_error", "C67_no_overflow", "C67_release", "C67_release_session", "C67_session", "C67_debug_overflow", "C67_release_wraps", "C67_early_look"],
     "The cursor is a natural number (it never exceeds the length of the file plus one); the native stack used by the nested calls for comments is not modelled, only their number is bounded."),
    ("C68", "proved", ["C68_crash", "C68_hangs", "C68_otherwise"],
     "An equivalence in both directions, in terms of the file texts (C65, C66), the parsed domain and the specification of right domains."),
    ("C69", "partial", ["C69_names_partial", "C69_refuted", "C69_only_names", "C69_variables", "C69_readable", "C69_ascii"],
     "Holds exactly for the words each byte of which is a letter, digit or mark of Latin-1; proved false for all others, with an arithmetic description of the characters concerned (all of Hebrew, 'ä', 'é', 'ß', ...)."),
    ("C70", "partial", ["C70_save_partial", "C70_save_refuted", "C70_blocked", "C70_problem", "C70_other", "C70_folder", "C70_panics"],
     "Requests hold in full, with an exact characterisation of the panics. Saving holds for URLs without escapes; with an escape such as %20 another file is read (did_save takes Url::path undecoded), so the server panics or stores the wrong text (C70_save_refuted)."),
    ("C71", "partial", ["C71_checked_partial", "C71_first", "C71_disk", "C71_name", "C71_refuted"],
     "Holds for folders with one domain (C71_checked_partial). With several, the one listed first counts (C71_first), so the claim is false and the answer depends on the listing order (C71_refuted). The domain named in the problem is not recorded (C71_name), and the text of a domain that is open in the editor is not used (C71_disk)."),
    ("C72", "partial", ["C72_metadata_partial", "C72_total_order", "C72_layout", "C59_metadata_refuted"],
     "Partial: labels of partially ordered subtasks have to be renamed such that it is kept which labels occur inside which; get_prefix compares labels with str::contains, so the claim is false without this (`C59_metadata_refuted`: renaming the label j to ii makes get_metadata run forever, for every hash order). Full for files with other layout and the same names (`C72_layout`), and for totally ordered methods (`C72_total_order`)."),
    ("C73", "partial", ["C73_verify_partial", "C73_metadata_partial", "C73_metadata_least", "C73_refuted"],
     "The budget of the model bounds the iterations of each loop. C73_verify_partial: for files that end with a delimiter, verify needs a budget of at most the square of (length of the domain file + 2) plus the length of the problem file. C73_metadata_partial: get_metadata, on accepted domains with a compound task and sequential recursive methods, returns with such a budget exactly if the budget is at least the number of descents, i.e. of chains of methods each for a subtask of the one before, no task twice. C73_refuted: this number is exponential: for each n there is an accepted, non-recursive domain file of length at most 250 (n+2)^2 on which get_metadata has not finished after 2^n - 1 iterations, in any order. Missing for verify: files whose last character is not a delimiter, where the lexer does not stop (C06)."),
    ("C74", "partial", ["C74_parens_partial", "C74_prefix", "C74_height", "C74_nesting_partial", "C74_refuted", "C74_unbounded"],
     "Proved: for every file, the depth is at most the number of its opening parentheses (C74_parens_partial, C74_prefix for any prefix of the execution); for parsed files it is the nesting of the formulas in the result plus one or two (C74_height); for files that follow the grammar it is at most the nesting of the parentheses plus one (C74_nesting_partial). Refuted as stated: `(not )` takes the closing parenthesis for its operand, so accepted domains with never more than four open parentheses recurse arbitrarily deep (C74_refuted). Even files that follow the grammar have no bound (C74_unbounded), there is no limit in the code. The size of the native stack is not modelled."),
    ("C75", "proved", ["C75_domain", "C75_problem", "C75_domain_first", "C75_accepted", "C75_crash"],
     "`domainChecks` and `problemChecks` list the checks by what they find, in terms of the declarations of the file; both directions are proved, so that the error does not depend on the hash order."),
    ("C76", "proved", ["C76_computed", "C76_metadata", "C76_possible", "C76_uniform", "C76_warnings"],
     "The nullable tasks and warnings of domains that are not uniform depend on the hash order even for one file (C32_refuted); therefore the last part is restricted to uniform domains; C76_possible says for all accepted domains that the same results are possible."),
    ("C77", "proved", ["C77_recursive", "C77_class", "C77_uniform", "C77_refuted"],
     "C77_refuted: for a domain that is not uniform, adding an empty method removes a task from the nullable ones and adds a warning, because compute_nullables wrongly reported it before."),
    ("C78", "proved", ["C78_domain", "C78_problem"],
     "A symbol without type may only be replaced by one without type: typed arguments are not accepted for untyped parameters (nor the converse), see C21."),
    ("C79", "proved", ["C79_problem", "C79_refuted"],
     "C79_refuted: without the condition on names the claim is false; an object with the name of a constant hides the constant, so that existing facts are rejected."),
    ("C80", "proved", ["C80_domain", "C80_problem", "C80_refuted"],
     "C80_refuted: without the condition on parents the claim is false; the removal of an unused type `a - b` makes `b` unknown if `b` is not declared itself."),
    ("C81", "proved", ["C81_domain_shape", "C81_problem_shape", "C81_domain", "C81_problem", "C81_domain_lenient", "C81_problem_lenient", "C81_domain_verdict", "C81_problem_verdict", "C81_domain_file", "C81_problem_file", "C81_normal_form", "C81_refuted"],
     "`readDomain` and `readProblem` (Spec/Printing.lean) state the exception exactly; C81_refuted: without it the claim is false."),
    ("C82", "proved", ["C82_outcome", "C82_metadata", "C82_warnings", "C82_skeleton_file", "C82_propositional", "C82_orderings_needed"],
     "C82_orderings_needed: the orderings cannot be removed from the skeleton. C82_propositional assumes that the names consist of letters, digits, `_` and `-` (`Utterable`), as C81 does."),
    ("C83", "proved", ["C83_meaning", "C83_domain", "C83_problem", "C83_metadata", "C83_warnings", "C83_dual_refuted", "C83_meaning_refuted", "C83_added_refuted"],
     "C83_dual_refuted, C83_meaning_refuted, C83_added_refuted: the exceptions are necessary."),
    ("C84", "proved", ["C84_domain", "C84_problem", "C84_nullables", "C84_warnings", "C84_recursive", "C84_nullables_uniform", "C84_warnings_uniform", "C84_possible", "C84_class_refuted", "C84_listing_refuted"],
     "C84_class_refuted, C84_listing_refuted: the exceptions are necessary."),
    ("C85", "proved", ["C85_promote", "C85_demote", "C85_unused", "C85_type_refuted", "C85_parameter_refuted", "C85_constant_refuted"],
     "The last three theorems show that the conditions are needed."),
    ("C86", "partial", ["C86_accepted", "C86_part", "C86_recursive", "C86_class", "C86_uniform", "C86_refuted"],
     "Acceptance and being recursive hold for all parts; nullable tasks, warnings and classes for uniform parts. C86_refuted shows that the latter fails in general because the loop of compute_nullables stops for all tasks at once."),
    ("C87", "proved", ["C87_crash", "C87_endless", "C87_cases", "C87_determined", "C87_accepted", "C87_order", "C87_not_domain", "C87_json_crash", "C87_json_endless", "C87_instance"],
     "Together with C37_returns_iff this gives the outcome for every file; only for domains with both a crashing and a looping subtask the outcome is left open between the two, and C87_order shows that it depends on the hash order there."),
    ("C88", "proved", ["C88_error", "C88_warning", "C88_alike", "C88_exceptions", "C88_command"],
     "The printed form of a floating point number (`f64` Display, part of `Env`) is assumed to have no quotation mark; C88_exceptions shows that the first two exceptions occur."),
    ("C89", "proved", ["C89_exact", "C89_determined", "C89_bounded", "C89_unbounded"],
     "For debug builds files with fewer than 2^32 - 1 newlines (beyond that C67_debug_overflow). Counts calls in the source; whether a compiler turns the call in line 129 into a jump is not modelled."),
    ("C90", "proved", ["C90_view", "C90_same", "C90_exact"],
     "The converse half of C90_exact supposes that the names in the domains are ASCII words and that the parameters of actions have known types (the analyser does not check the latter for actions without precondition and effect). The warnings of an accepted problem are those of its domain (C33)."),
    ("C91", "proved", ["C91_domain", "C91_problem", "C91_ends", "C91_front", "C91_insert", "C91_renamed", "C91_renamed_problem"],
     "For renamed files the statement is about files that are parsed (C59 has the verdicts, C91 adds error, warnings and lines)."),
    ("C92", "proved", ["C92_domain", "C92_problem", "C92_lines", "C92_metadata", "C92_blocks", "C92_regrouped", "C92_problem_blocks", "C92_types", "C92_same_sort"],
     "C60 has the verdicts for every order of the declarations; C92 has the complete answers if the order within each sort is kept. The block theorems assume, like C13 and C14, that a block whose text stops before its closing parenthesis is the last one."),
    ("C93", "proved", ["C93_parsed", "C93_never", "C93_rejected", "C93_reported", "C93_named", "C93_problem", "C93_complete", "C93_cases", "C93_flat"],
     "Keywords that are not supported (`:metric`, `:durative-action`, ..) are lexical errors, see C08 and C65. Behind a complete definition nothing is read (C93_complete)."),
    ("C94", "proved", ["C94_right", "C94_all", "C94_repair", "C94_progress", "C94_answer", "C94_not_all"],
     "C94_not_all shows the limit: after `(p` a closing parenthesis would be right as well, and the message asks for an identifier only. Whether the file that results is semantically accepted is not part of the claim."),
    ("C95", "partial", ["C95_accepted_partial", "C95_rejected", "C95_zero", "C95_crash", "C95_codes", "C95_domain", "C95_usual", "C95_told", "C95_unreadable", "C95_metadata", "C95_json", "C95_refuted"],
     "Holds: accepted files give 0, crashes give 101, and there are no other codes. Fails for all rejected files whose error is printed, and for unreadable files (C95_rejected, C95_domain, C95_unreadable): they give 0. The last line of standard output tells the difference (C95_told). The exit codes of clap for wrong arguments and of a stack overflow are not modelled."),
    ("C96", "proved", ["C96_domain", "C96_domain_file", "C96_domain_ok", "C96_verdict", "C96_problem", "C96_problem_file", "C96_problem_ok"],
     "The same error (names, types, numbers) or crash is reported, on the lines of the file the excerpt stands in. The files with the excerpts exist if the names of the domain consist of letters, digits, `_` and `-` (C96_domain_file, C96_problem_file). C96_problem keeps the whole domain."),
    ("C97", "proved", ["C97_verdict", "C97_report", "C97_metadata", "C97_problems", "C97_network", "C97_network_report", "C97_capture"],
     "C97_report and C97_network_report: the same kind of error on the corresponding lines, with the variable in it renamed. Labels of subtasks are not variables (see C72). C97_capture: files that differ in the name of a parameter only, one accepted and one rejected, because the new name is that of a constant."),
    ("C98", "proved", ["C98_count", "C98_accepted", "C98_header", "C98_reported", "C98_after_action", "C98_after_method", "C98_possible", "C98_impossible"],
     "Faulty is meant in the sense of ActionOk and MethodOk, the specification of C23. C98_reported gives the report as the first finding of the checks of that one declaration (C75). C98_possible is for domains whose tokens can be spelled (C81)."),
    ("C99", "proved", ["C99_domain", "C99_line", "C99_answer", "C99_problem", "C99_problem_parts", "C99_problem_iff", "C99_problem_line", "C99_problem_accepted", "C99_hangs", "C99_panics"],
     "C99_problem_accepted, C99_hangs and C99_panics are the negative part of the claim, with concrete files."),
    ("C100", "proved", ["C100_exact", "C100_domain", "C100_metadata", "C100_only_types", "C100_other", "C100_problem_exact", "C100_problem", "C100_problem_only_types", "C100_partly"],
     "C100_partly: removing a single type is not enough, an accepted domain can then be rejected, because typed and untyped symbols never fit (C21)."),
    ("C101", "proved", ["C101_methods", "C101_metadata", "C101_network", "C101_converse"],
     "Actions are left out because their parameters are what callers see (C78, C90)."),
    ("C102", "proved", ["C102_domain", "C102_problem", "C102_decompositions", "C102_metadata", "C102_warnings", "C102_types_needed", "C102_warnings_refuted"],
     "C102_domain and C102_problem are equivalences, so they also say that the rest can be unfolded again. Nothing is claimed about the class of recursive domains. C102_types_needed, C102_warnings_refuted: the conditions are necessary."),
    ("C103", "proved", ["C103_length", "C103_work", "C103_quadratic", "C103_tight"],
     "The texts are modelled byte by byte; `work` counts the bytes written to the result and to the intermediate strings of format!, collect and join (not the bytes moved when a string grows). How f64 is printed is not modelled, hence the assumption `ShortReals`. C103_tight shows that the texts are quadratic work in an accepted file; the result is unused, so the line could be deleted."),
    ("C104", "proved", ["C104_verify", "C104_alike", "C104_metadata", "C104_metadata_alike"],
     "Stronger than C88_command, which has the lines one by one: here the lines of a stream are joined and the reader (Spec/Streams.lean) has to find where they end. Files that cannot be read are not considered (their error text comes from the operating system). The method printed last in a cycle is not shown by the code."),
    ("C105", "proved", ["C105_verdict", "C105_report", "C105_warnings", "C105_problems", "C105_network", "C105_network_report", "C105_metadata", "C105_labels", "C105_renamed", "C105_closure", "C105_redundant_refuted"],
     "C84 has the verdict and C72 one renaming for the whole file; here labels are renamed method by method and the class of recursion with its cycle is compared. Refuted beyond that: C105_redundant_refuted (a redundant constraint makes get_metadata crash), C59_metadata_refuted (without the condition on labels that occur inside others get_metadata need not return)."),
    ("C106", "proved", ["C106_accepted", "C106_problem", "C106_plans", "C106_ends", "C106_again"],
     "weed_spec: a domain from which first one and then another task is removed, until there are no warnings. Plans are those of Spec/Weeding.lean: decompositions with well-typed parameters, without orderings and preconditions."),
    ("C107", "proved", ["C107_parts", "C107_whole", "C107_report", "C107_repaired"],
     "Instances: slice_report, slice_whole, slice_mended."),
]

out = {"claims": [dict(property=p, status=s, theorems=["Verif." + t for t in ts], note=n) for p, s, ts, n in CLAIMS]}
with open("/verif/MANIFEST.json", "w") as f:
    json.dump(out, f, indent=1)
    f.write("\n")
