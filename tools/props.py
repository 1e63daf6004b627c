#!/usr/bin/env python3
# Writes /verif/properties.jsonl.  One entry per property.
import json, os
P = []
def p(id, title, statement, quantifier, why, anchors):
    P.append(dict(id=id, title=title, statement=statement, quantifier=quantifier,
                  why_tests_cant=why, anchors=anchors))
LEX = "src/lexical_analyzer/tokenizer.rs"
p("C01", "Reported line numbers are exact",
  "Whenever the tokenizer hands out a token or a lexical error, the line number it reports is one plus the number of newline bytes that precede that token in the file, whatever mixture of reading and peeking calls came before.",
  "all byte files, all histories of get_token/lookahead calls",
  "The line counter is advanced as a side effect of skipping blanks, in peeking and reading mode and around comments; a test fixes one file and one call history.",
  [LEX+"::parse", LEX+"::skip_whitespaces", LEX+"::get_last_token_position"])
p("C02", "Peeking never changes what is read",
  "Calling lookahead any number of times does not change any token, error, or line number returned by later get_token calls.",
  "all byte files, all tokenizer states, any number of peeks",
  "Lookahead mutates the shared cursor (it skips blanks and comments); harmlessness must hold at every state.",
  [LEX+"::lookahead", LEX+"::get_token", LEX+"::parse"])
p("C03", "Peeked token equals the next token read",
  "The token returned by lookahead is the token the next get_token returns.",
  "all byte files, all tokenizer states",
  "The only repository test walks one method definition; the claim is about every state.",
  [LEX+"::lookahead", LEX+"::ordering_type"])
p("C04", "Layout does not matter",
  "Any sequence of valid tokens, written out with any separating blanks, newlines and comments, is read back as exactly that sequence with the line of each token, followed by end of file.",
  "all token sequences, all layouts (blanks, newlines, comments of any length)",
  "Infinite space of sequences and layouts.",
  [LEX+"::parse", LEX+"::peek_lexeme", LEX+"::peek_number", LEX+"::skip_whitespaces"])
p("C05", "Reading makes progress",
  "Every get_token call either reports end of file or consumes at least one byte, so a file yields finitely many tokens.",
  "all byte files, all tokenizer states",
  "A liveness statement over every file; a test that hits the non-terminating case never finishes.",
  [LEX+"::peek_lexeme", LEX+"::parse"])
p("C06", "Parsing terminates",
  "Parsing a file returns after finitely many steps.",
  "all byte files",
  "Termination for all inputs cannot be observed by running finitely many of them.",
  ["src/syntactic_analyzer/parser.rs::parse", "src/syntactic_analyzer/problem_parser/list_parser.rs::parse_args", LEX+"::peek_lexeme"])
p("C07", "Verification of a domain file does not crash",
  "verify on a domain returns a result or an error value; it never panics.",
  "all byte files",
  "Absence of a panic is a claim about every input.",
  ["src/lib.rs::HDDLAnalyzer::verify", LEX+"::peek_lexeme", "src/semantic_analyzer/undefined_elements.rs::check_predicate_declarations", "src/semantic_analyzer/tdg.rs::TDG::new"])
p("C08", "Reserved words are recognised exactly",
  "A word is read as a keyword, requirement or operator exactly when it is in the published table (with the aliases tasks/subtasks, ordered-tasks/ordered-subtasks, order/ordering, and domain/problem with or without colon); every other colon word is an invalid keyword error and every other plain word made of letters, digits, '_' and '-' that does not start with a digit or a hyphen is an identifier.",
  "all words",
  "Tests list the members; exactness needs all non-members.",
  [LEX+"::parse", LEX+"::is_operator"])
p("C09", "Numbers are read at their value",
  "A run of decimal digits is read as the integer it denotes when that fits in a signed 64 bit integer and rejected otherwise; digits with one dot are read as one real number token.",
  "all digit strings",
  "Overflow boundary and unbounded lengths.",
  [LEX+"::peek_number"])
p("C10", "Variables and constants share one name space",
  "For every plain word w that is not reserved, ?w and w are read as the same identifier, so no later phase can tell a variable from a constant of the same name.",
  "all words",
  "Universally quantified over names.",
  [LEX+"::parse"])
p("C11", "Typed lists assign the next type to the right",
  "In a list of names, each name gets the type of the first '- T' that follows it and no type if there is none; the order, the names and their lines are kept.",
  "all typed lists of any length, in any layout",
  "Grouping depends on arbitrary run lengths.",
  ["src/syntactic_analyzer/problem_parser/list_parser.rs::parse_args"])
p("C12", "Formulas are parsed to the tree they denote",
  "Every formula of the supported grammar (atoms, not, and, or, oneof, forall, exists, equality, probabilistic), nested to any depth, is parsed to exactly its syntax tree.",
  "all formulas of any size and depth, any layout",
  "Unbounded nesting.",
  ["src/syntactic_analyzer/domain_parser/formula_parser.rs::parse_formula"])
p("C13", "Domain files are parsed to the model they denote",
  "Every domain written in the supported grammar, with its blocks in any order and in any layout, is parsed to exactly the syntax tree it denotes, with every declaration kept in order.",
  "all grammatical domains, all block orders, all layouts",
  "Combinatorial space of block sequences.",
  ["src/syntactic_analyzer/domain_parser/router.rs::parse_domain", "src/syntactic_analyzer/domain_parser/method_parser.rs::parse_method", "src/syntactic_analyzer/domain_parser/action_parser.rs::parse_action", "src/syntactic_analyzer/problem_parser/init_tn_parser.rs::parse_htn"])
p("C14", "Problem files are parsed to the model they denote",
  "Every problem written in the supported grammar is parsed to the syntax tree it denotes: objects and requirements accumulate, the last :init and the last :htn win.",
  "all grammatical problems, all block orders, all layouts",
  "Combinatorial space of block sequences.",
  ["src/syntactic_analyzer/problem_parser/router.rs::parse_problem", "src/syntactic_analyzer/problem_parser/init_tn_parser.rs::parse_initial_tn"])
p("C15", "Text after the definition is ignored",
  "Whatever follows the closing parenthesis of a domain definition has no influence on verify, get_metadata or to_json, and whatever follows that of a problem definition has no influence on verify or to_json.",
  "all grammatical files, all trailing bytes",
  "Quantifies over all suffixes.",
  ["src/syntactic_analyzer/domain_parser/router.rs::parse_domain", "src/syntactic_analyzer/problem_parser/router.rs::parse_problem"])
p("C16", "No block of a file is silently dropped",
  "If a file is accepted by the parser, every block before the closing parenthesis of the definition is represented in the syntax tree.",
  "all accepted files",
  "The failing cases need particular block orders; a test suite built from well ordered benchmarks never sees them.",
  ["src/syntactic_analyzer/problem_parser/router.rs::parse_problem", "src/syntactic_analyzer/problem_parser/init_tn_parser.rs::parse_htn", "src/syntactic_analyzer/problem_parser/init_tn_parser.rs::parse_initial_tn"])
p("C17", "Classification agrees with parsing",
  "A file that parses as a domain is classified as a domain, a file that parses as a problem is classified as a problem, and a file classified as one never parses as the other.",
  "all byte files",
  "Two independent code paths must agree on every input.",
  ["src/syntactic_analyzer/parser.rs::classify", "src/syntactic_analyzer/parser.rs::parse", "src/language_server/diagnostic_utils.rs::classify_file"])
p("C18", "Positions recorded in the syntax tree are genuine",
  "Every name stored in a syntax tree with line n really occurs as a word on line n of the file, and every recorded line lies between 1 and the number of lines.",
  "all accepted files",
  "Quantifies over all files and all nodes.",
  ["src/syntactic_analyzer/parser.rs", "src/syntactic_analyzer/syntax_tree/nodes/symbol.rs", LEX])
p("C19", "Duplicate declarations are found and located",
  "verify reports a duplicate of kind K exactly when two declarations of kind K share a name (and no earlier check fails), and the two reported lines are those of the first declaration and of the repeated one. Kinds: requirement, predicate, compound task, action, method, action/method parameter, object, constant.",
  "all syntax trees",
  "Needs every list of declarations, of any length.",
  ["src/semantic_analyzer/analyzers/domain_analyzer.rs", "src/semantic_analyzer/analyzers/problem_analyzer.rs"])
p("C20", "Cyclic type hierarchies are rejected, acyclic ones are not",
  "verify reports a cyclic type declaration exactly when the declared subtype relation has a cycle of any length (and requirements are not duplicated).",
  "all type declarations",
  "Cycles of every length.",
  ["src/semantic_analyzer/type_checker/generic_type_checker.rs::TypeChecker::new", "src/semantic_analyzer/type_checker/generic_type_checker.rs::verify_type_hierarchy"])
p("C21", "Type compatibility is the reflexive transitive subtype relation",
  "An argument of type S is accepted where T is expected exactly when S = T or S is a descendant of T in the declared hierarchy; an untyped argument is accepted exactly where no type is expected.",
  "all hierarchies and type pairs",
  "Paths of every length.",
  ["src/semantic_analyzer/type_checker/generic_type_checker.rs::is_var_type_consistent"])
p("C22", "Cyclic task orderings are rejected, acyclic ones are not",
  "A method or initial task network is rejected for cyclic ordering exactly when its ordering constraints contain a cycle of any length; the reported line is that of the :ordering keyword.",
  "all ordering lists",
  "Cycles of every length.",
  ["src/syntactic_analyzer/syntax_tree/nodes/htn.rs::is_acyclic", "src/semantic_analyzer/analyzers/domain_analyzer.rs::verify_domain"])
p("C23", "Domain acceptance coincides with a declarative well-formedness predicate",
  "A parsed domain is accepted exactly when it satisfies the declarative conditions: requirements and names of predicates, tasks, actions, methods and of the parameters of one action or method are unique; types and orderings are acyclic; every atom uses a declared predicate with matching arity; every argument of an atom outside quantifiers is a declared parameter or constant of a compatible type; method tasks and subtasks are declared with matching arity and compatible arguments; parameter types of predicates, tasks, and actions and methods with a formula are declared; and no formula has an existential quantifier.",
  "all syntax trees produced by the parser",
  "An equivalence over all domains.",
  ["src/semantic_analyzer/analyzers/domain_analyzer.rs::verify_domain", "src/semantic_analyzer/type_checker/domain_type_checker.rs"])
p("C24", "Problem acceptance coincides with a declarative well-formedness predicate",
  "Given an accepted domain, a problem is accepted exactly when its object types are declared, its objects are unique, its initial state atoms, its goal atoms outside quantifiers and its initial tasks are declared with matching arity and compatible argument types, and its ordering is acyclic.",
  "all accepted domains and all problem syntax trees",
  "An equivalence over all pairs.",
  ["src/semantic_analyzer/analyzers/problem_analyzer.rs::verify_problem", "src/semantic_analyzer/type_checker/problem_type_checker.rs"])
p("C25", "Undefined-entity errors are truthful",
  "If verify reports that a predicate, type, task, subtask, parameter or object is undefined, then the named symbol occurs in the file at the reported line and is indeed not declared.",
  "all domains and problems",
  "Soundness of diagnostics over all inputs.",
  ["src/semantic_analyzer/undefined_elements.rs", "src/semantic_analyzer/type_checker"])
p("C26", "Arity errors are truthful",
  "If verify reports an arity error, the named symbol is used at the reported line with a number of arguments different from its declaration, the expected count is the declared one and the found count is the used one.",
  "all domains and problems",
  "Soundness of diagnostics over all inputs.",
  ["src/semantic_analyzer/analyzers/domain_analyzer.rs:155-170", "src/semantic_analyzer/type_checker"])
p("C27", "Type errors are truthful",
  "If verify reports a type error, some argument at the reported line has a type incompatible with the declaration, and the expected and found types in the report are the declared type and the actual type of the argument.",
  "all domains and problems",
  "Soundness of diagnostics over all inputs.",
  ["src/semantic_analyzer/type_checker/problem_type_checker.rs:50-66", "src/semantic_analyzer/type_checker/domain_type_checker.rs"])
p("C28", "Semantic analysis of a parsed file does not crash",
  "Semantic verification of any syntax tree produced by the parser returns a result or a semantic error and never panics.",
  "all files accepted by the parser",
  "Panics hide in unwraps whose safety is a parser invariant.",
  ["src/semantic_analyzer/undefined_elements.rs:48-51", "src/semantic_analyzer/tdg.rs::TDG::new", "src/semantic_analyzer/analyzers/domain_analyzer.rs:194-198"])
p("C29", "Warnings are exactly the tasks without a reachable action",
  "On acceptance, verify warns about a compound task, once and at its declaration line, exactly when no action is reachable from it through methods and it is not computed to be nullable.",
  "all accepted domains, all hash iteration orders",
  "Reachability through any number of methods.",
  ["src/semantic_analyzer/analyzers/domain_analyzer.rs:200-210", "src/semantic_analyzer/tdg.rs::reachable"])
p("C30", "Unrefinable-task warnings are right",
  "verify warns about a compound task exactly when it has no refinement into a (possibly empty) sequence of actions.",
  "all accepted domains",
  "Refinement is an inductively defined notion over all derivations.",
  ["src/semantic_analyzer/tdg.rs::reachable", "src/semantic_analyzer/tdg.rs::compute_nullables"])
p("C31", "Nullable tasks are computed exactly",
  "The tasks reported nullable by get_metadata are exactly those that can be refined into the empty task network.",
  "all domains, all hash iteration orders",
  "Fixpoint computation with early exits and order dependence.",
  ["src/semantic_analyzer/tdg.rs::compute_nullables"])
p("C32", "Results do not depend on hash iteration order",
  "Two runs of verify on the same bytes accept or reject alike, report the same error, and on acceptance report the same set of warnings.",
  "all files, all pairs of hash iteration orders",
  "The standard library randomises the order on every run; a test sees one.",
  ["src/semantic_analyzer/analyzers/domain_analyzer.rs::verify_domain", "src/semantic_analyzer/tdg.rs"])
p("C33", "A problem adds no warnings",
  "If verify accepts a domain and a problem, it accepts the domain alone, and the warnings are the same.",
  "all pairs of files",
  "Relates two runs on every input.",
  ["src/lib.rs::HDDLAnalyzer::verify", "src/semantic_analyzer/analyzers/problem_analyzer.rs::verify_problem"])
p("C34", "Non-recursive means acyclic",
  "get_metadata reports a non-recursive hierarchy exactly when no task can be decomposed, through one or more methods, into a network containing itself.",
  "all domains, all hash iteration orders",
  "Cycles of every length through any methods.",
  ["src/semantic_analyzer/tdg.rs::get_recursion_type"])
p("C35", "The recursion class does not depend on search order",
  "For a fixed set of nullable tasks the recursion class reported by get_metadata does not depend on the order in which cycles are found.",
  "all task decomposition graphs, all search orders",
  "The class is folded over cycles in hash order.",
  ["src/semantic_analyzer/tdg.rs::get_recursion_type"])
p("C36", "The reported cycle is real",
  "The cycle printed with a recursive class is a genuine decomposition cycle: each listed task has the listed method, that method contains the next task, and the last task equals the first.",
  "all domains, all hash iteration orders",
  "Needs every graph and path.",
  ["src/semantic_analyzer/tdg.rs::get_recursion_type", "src/output/metadata.rs::format_task_pairs"])
p("C37", "get_metadata terminates and does not crash",
  "get_metadata returns for every domain accepted by verify.",
  "all accepted domains, all hash iteration orders",
  "Termination cannot be tested.",
  ["src/semantic_analyzer/tdg.rs::compute_nullables", "src/semantic_analyzer/tdg.rs::get_prefix", "src/semantic_analyzer/tdg.rs::get_suffix"])
p("C38", "Metadata counts are exact",
  "The numbers of actions, abstract tasks and methods reported by get_metadata are the numbers of :action, :task and :method blocks of the domain.",
  "all grammatical domains",
  "All block sequences.",
  ["src/lib.rs::HDDLAnalyzer::get_metadata"])
p("C39", "JSON export loses nothing",
  "The syntax tree can be recovered from the output of to_json; in particular different syntax trees give different JSON, and files with the same JSON get the same answers from verify, including all lines, and the same metadata.",
  "all syntax trees",
  "Injectivity over all trees.",
  ["src/lib.rs::HDDLAnalyzer::to_json", "src/syntactic_analyzer/syntax_tree"])
p("C40", "Every reported error can be displayed",
  "Rendering the error returned by verify as text never panics, and the text of located errors starts with the reported line.",
  "all files",
  "Needs every error value reachable from every input.",
  ["src/output/errors/semantic.rs:117-142", "src/semantic_analyzer/type_checker/problem_type_checker.rs:58-65"])
p("C41", "Language server diagnoses the latest text",
  "After any history of open, change and save notifications, a diagnostic request is answered for the text most recently received for that document, and for a document never received it is answered with an error.",
  "all histories of notifications",
  "Histories are unbounded.",
  ["src/language_server/request_handler.rs"])
p("C42", "Language server and command line agree on domains",
  "For a domain document the language server reports no diagnostic exactly when verify accepts it, and otherwise exactly one diagnostic carrying the error that verify returns.",
  "all documents",
  "Two code paths on every input.",
  ["src/language_server/diagnostic_utils.rs::diagnose_domain", "src/lib.rs::HDDLAnalyzer::verify"])
p("C43", "Diagnostics point at the reported line",
  "The range of a diagnostic for a located error starts at the (zero based) line of the error, and converting an error into a diagnostic never panics.",
  "all errors produced on any input",
  "Needs the invariant that every produced line number is at least one.",
  ["src/language_server/diagnostic_utils.rs::From<ParsingError> for Diagnostic"])
p("C44", "The command line reports what verify returns",
  "The verify command prints [Ok] on standard output exactly when verify accepts, each warning once before it, and otherwise prints exactly one error on standard error and no [Ok].",
  "all file contents",
  "All inputs.",
  ["src/bin/hddl_analyzer/main.rs"])
p("C45", "The parser accepts exactly its grammar",
  "A file parses to a syntax tree exactly when its tokens start with a text of the (leniently read) HDDL grammar that denotes that tree; in particular nothing outside the grammar is accepted.",
  "all byte files, all syntax trees",
  "Rejection of everything outside the grammar is a statement about infinitely many malformed files.",
  ["src/syntactic_analyzer/parser.rs::Parser::parse", "src/syntactic_analyzer/domain_parser", "src/syntactic_analyzer/problem_parser"])
p("C46", "Lexical and syntax errors are truthful",
  "If verify reports a lexical or syntax error, the reported lexeme or token is written in one of the two files on the reported line, and in the problem file only if the domain is accepted.",
  "all pairs of files",
  "Soundness of diagnostics over all inputs.",
  ["src/syntactic_analyzer/parser.rs", LEX, "src/output/errors/lexical.rs", "src/output/errors/syntactic.rs"])
p("C47", "Formulas below quantifiers are checked like all others",
  "In an accepted domain every atom of every precondition and effect uses a declared predicate with arguments that are bound by an enclosing quantifier, a parameter or a constant and have a compatible type; in an accepted problem the same holds for the goal.",
  "all accepted files",
  "Formulas of every shape and depth.",
  ["src/syntactic_analyzer/syntax_tree/nodes/formula.rs::get_propositional_predicates", "src/semantic_analyzer/type_checker/domain_type_checker.rs"])
p("C48", "Every type that is used is declared",
  "In an accepted domain every type annotation of a predicate, task, action, method or constant names a declared type.",
  "all accepted files",
  "All declarations in all files.",
  ["src/semantic_analyzer/type_checker/domain_type_checker.rs", "src/semantic_analyzer/analyzers/domain_analyzer.rs"])
p("C49", "The recursion class is right",
  "For a domain with totally ordered methods, get_metadata reports the highest class among all decomposition cycles: a cycle has an empty prefix if every task before the next task of the cycle is nullable, and its suffix decides between empty, grow-and-shrink and growing.",
  "all accepted domains, all cycles, all hash iteration orders",
  "Quantifies over all cycles of all domains.",
  ["src/semantic_analyzer/tdg.rs::get_recursion_type", "src/semantic_analyzer/tdg.rs::get_prefix", "src/semantic_analyzer/tdg.rs::get_suffix"])
p("C50", "Language server and command line agree on problems",
  "For a problem document, the language server reports no diagnostic exactly when verify accepts the problem together with the first domain of its folder, and otherwise the first diagnostic carries the error that verify returns.",
  "all documents, all folders",
  "Two code paths on every pair of files.",
  ["src/language_server/diagnostic_utils.rs::diagnose_problem", "src/language_server/request_handler.rs::diagnostic", "src/lib.rs::HDDLAnalyzer::verify"])
p("C51", "Type soundness of planning",
  "When verify accepts a domain and a problem, every task in every task network obtained from the initial one by methods, and every fact in every state reached by actions, has a declared name, the declared number of arguments, and arguments of the declared types.",
  "all accepted pairs of files, all sequences of decompositions, all sequences of actions, all well-typed values of parameters",
  "Unbounded sequences of decompositions and actions over all accepted files.",
  ["src/semantic_analyzer/analyzers/domain_analyzer.rs::verify_domain", "src/semantic_analyzer/analyzers/problem_analyzer.rs::verify_problem", "src/semantic_analyzer/type_checker/domain_type_checker.rs", "src/lib.rs::HDDLAnalyzer::verify"])
p("C52", "Ordering constraints can be met",
  "The ordering constraints of every task network that verify accepts are about subtasks of the network and can be met by executing the subtasks one after the other in some order; a network is rejected for its ordering only if there is no such order.",
  "all accepted and rejected files, all task networks",
  "The existence of an order for every accepted network of any size.",
  ["src/semantic_analyzer/type_checker/domain_type_checker.rs", "src/semantic_analyzer/analyzers/domain_analyzer.rs::verify_domain", "src/semantic_analyzer/analyzers/problem_analyzer.rs::verify_problem"])
p("C53", "Non-recursive domains have finite search spaces",
  "The metadata says that a domain is non-recursive exactly if no task network can be decomposed forever, and then only finitely many task networks can be obtained from any problem.",
  "all domains whose metadata is computed, all problems, all sequences of decompositions",
  "Speaks about infinite sequences of decompositions.",
  ["src/semantic_analyzer/tdg.rs::get_recursion_type", "src/lib.rs::HDDLAnalyzer::get_metadata"])
p("C54", "Classes of recursion describe decompositions",
  "The metadata reports recursion exactly if some task can be decomposed into a network that contains it again; a class with empty prefix exactly if some task can be decomposed into a network that starts with it; and empty or grow-and-shrink recursion exactly if some task can be decomposed into itself alone.",
  "all domains whose metadata is computed, all sequences of decompositions",
  "Relates a search for simple cycles with arbitrary long derivations.",
  ["src/semantic_analyzer/tdg.rs::get_recursion_type", "src/semantic_analyzer/tdg.rs::get_prefix", "src/semantic_analyzer/tdg.rs::get_suffix"])
p("C55", "The metadata command prints the metadata of the file",
  "The `metadata` command, given a readable domain file on which the analysis ends, prints one text on standard output and nothing else: the kind of recursion (\"Non-recursive\" exactly if no task leads to itself, otherwise a heading and a cycle of methods of the domain), the tasks reported as nullable, each once and on its own line, and the numbers of actions, compound tasks and methods of the file, each under its own label. A file that does not parse gives exactly one line on standard error with the text of the error.",
  "for all files, all hash orders and all runs of the command that end",
  "Unbounded set of domains and hash orders; a test sees one text and cannot tell that labels and numbers always belong together or that nothing else is printed.",
  ["src/bin/hddl_analyzer/main.rs: main (Commands::Metadata)", "src/output/metadata.rs: Display for MetaData, Display for RecursionType", "src/lib.rs: HDDLAnalyzer::get_metadata"])
p("C56", "The serialize command prints JSON from which the files' syntax trees can be read back",
  "`serialize` prints `[Ok]` and a text exactly if the files parse as a domain and a problem; the text is a JSON text of the exported value according to the JSON grammar; it determines the syntax trees (up to the spelling of real numbers with the same value); with an output file the file gets the same text and one line is printed; if a file does not parse, one line goes to standard error and nothing is written. Standard output as a whole is meant to be JSON.",
  "for all files, hash orders, output files and runs of the command that end",
  "Injectivity of the text over all syntax trees, including names that need escaping, is a statement about pairs of arbitrary inputs.",
  ["src/bin/hddl_analyzer/main.rs: main (Commands::Serialize)", "src/lib.rs: HDDLAnalyzer::to_json"])
p("C57", "Concurrent handlers of the language server act as if run one after the other",
  "However the handlers of the language server are interleaved, each diagnostic request is answered at most once, and the answer is the one a server gives that handled exactly the notifications received before the request, in order; in particular it is for the last text of the document received before the request. This fails for documents that are saved without their text: the server then reads the file while later messages are handled, and old text may replace a newer one. For all documents, an answer is for some text of the document that was sent before the request, or that its file had, if it was saved before; and a document for which a text was sent is never reported as unknown.",
  "for every sequence of messages, every interleaving of up to four handlers at their await points, every content of files on disk",
  "Depends on the scheduling of asynchronous handlers; a test sees one schedule per run, and the failing one needs a file read to end late.",
  ["src/language_server/request_handler.rs: sync, did_open, did_save, did_change, diagnostic", "src/bin/language_server/main.rs: main"])
p("C58", "The language server answers every request",
  "For n messages the server makes at most 4n+1 steps; when it can do nothing more and has not crashed, every request has been answered, unless the analysis of a requested document does not end. It crashes only if an analysis panics or a document is saved without its text and its file cannot be read. So if saved files can be read, all texts end with a blank or a parenthesis and no analysis panics, every request is answered, even if files change meanwhile. It is false otherwise: one document with a duplicate definition, or one saved file that cannot be read, ends the server, and one document that is cut off in a list keeps the lock for ever, so that no later text is taken over and no request after it is answered.",
  "for every sequence of messages, every interleaving of the handlers and every set of views of the file system",
  "Liveness under all schedules; tests cannot show that a request is never answered, nor that no schedule blocks.",
  ["src/language_server/request_handler.rs: diagnostic, did_save", "src/language_server/diagnostic_utils.rs: diagnose_domain, diagnose_problem"])
p("C59", "Names and layout do not matter for the verdict",
  "If two files have the same text up to white space, comments, the spelling of keywords, question marks before variables, and a one-to-one renaming of all names, then they parse to the same syntax trees up to lines and that renaming, or neither parses, and `verify` accepts both or neither; the same holds for domain and problem together. (The metadata is not independent of names: renaming the label `j` of a subtask to `ii` can make `get_metadata` run for ever.)",
  "for all pairs of files, all one-to-one renamings, all hash orders",
  "A statement about pairs of arbitrary texts and arbitrary renamings.",
  ["src/lexical_analyzer/tokenizer.rs::LexicalAnalyzer", "src/syntactic_analyzer/parser.rs::Parser", "src/lib.rs::HDDLAnalyzer::verify", "src/semantic_analyzer/tdg.rs::get_prefix"])
p("C60", "The order of declarations does not matter for the verdict",
  "If no name is declared twice as a constant, then files with the same declarations in another order (blocks in another order, or entries within the blocks for types, constants, predicates, objects and initial facts) are accepted alike. Without this condition it is false: duplicate constants are not reported, and the first declaration counts.",
  "for all pairs of files whose trees are rearrangements of each other, in all layouts, all hash orders",
  "Quantifies over all permutations of all files.",
  ["src/semantic_analyzer/analyzers/domain_analyzer.rs::verify_domain", "src/semantic_analyzer/analyzers/problem_analyzer.rs::verify_problem", "src/syntactic_analyzer/domain_parser/router.rs::parse_domain"])
p("C61", "Requirements, functions, constraints and the domain's name have no effect on the verdict",
  "Whether `verify` accepts a domain does not depend on its name, its functions, the variable constraints of its methods, nor on its requirements except that no requirement is repeated. For problems, the names of the problem and of its domain, its requirements and its variable constraints have no effect either. In particular features may be used without the requirement for them, constraints may mention unknown variables, and a problem is accepted for a domain with another name.",
  "for all pairs of files that differ only in these parts, all hash orders",
  "Independence from parts of the input is a statement about all pairs of inputs.",
  ["src/semantic_analyzer/analyzers/domain_analyzer.rs::verify_domain", "src/semantic_analyzer/analyzers/problem_analyzer.rs::verify_problem", "src/syntactic_analyzer/parser.rs::parse_problem_header"])
p("C62", "Accepted domains can be extended step by step",
  "If an accepted domain is extended by further declarations, no name is declared twice as a constant, and no new action has the name of an existing task, then the extension is accepted exactly if the new declarations are fine (no repeated names, no type cycle, known types, and well-formed new actions and methods); the existing actions and methods cannot become wrong. Problems accepted for the domain are accepted for each accepted extension. It is false if a new action takes the name of a task: calls of the task then mean the action.",
  "for all accepted domains and all extensions, all problems, all hash orders",
  "Monotonicity over all extensions of all domains.",
  ["src/semantic_analyzer/analyzers/domain_analyzer.rs::verify_domain", "src/semantic_analyzer/analyzers/problem_analyzer.rs::verify_problem", "src/semantic_analyzer/type_checker/generic_type_checker.rs::TypeChecker"])
p("C63", "A syntax error points at the first wrong token",
  "When parsing fails with a syntax error, the reported line is the line of a token t of the file. The tokens before t are right: some file that starts with the same tokens is parsed. The token t is wrong there: no file that starts with the same tokens and t is parsed; every such file, in any layout and with any continuation, gives the same error with the same expectation and the line of t in that file. The error names t (a comparison <= or >= that was only looked at is named < or >).",
  "all files, all budgets; all other files that start with the same tokens",
  "Needs, for every reachable point of the parser, that what was read so far can be completed to an acceptable file and that the rejected token cannot; tests only try single broken files and cannot see that the text before the error is never to blame.",
  ["src/syntactic_analyzer/parser.rs: Parser::parse, parse_document_type", "src/syntactic_analyzer/domain_parser/formula_parser.rs: parse_formula", "src/syntactic_analyzer/problem_parser/list_parser.rs: parse_args", "src/syntactic_analyzer/domain_parser/router.rs: parse_domain", "src/syntactic_analyzer/problem_parser/router.rs: parse_problem", "src/output/errors/syntactic.rs: SyntacticError", "src/lexical_analyzer/tokenizer.rs: get_token, lookahead"])
p("C64", "An unreadable token is reported only when everything before it is right",
  "When parsing fails with a lexical error, the tokens before the unreadable one can all be read, reading the next token gives exactly the reported error, and some file that starts with the same tokens is parsed.",
  "all files, all budgets",
  "The order of lexical and syntactic errors depends on how far the parser looks ahead; only a statement over all files says that a lexical error never hides an earlier syntax error.",
  ["src/lexical_analyzer/tokenizer.rs: get_token, lookahead", "src/syntactic_analyzer/parser.rs: Parser::parse", "src/output/errors/lexical.rs: LexicalError"])
p("C65", "Which answer the parser gives is determined by the first place where the file cannot be continued",
  "Call the first token of a file that no parsed file has after the tokens before it the first wrong token. The parser reports a syntax error on line l if and only if the first wrong token stands on line l and no problem file could end before it; the error names this token. It panics in the problem parser if and only if the first wrong token follows a text that could be a whole problem file. It reports a lexical error e, or panics in the tokenizer, if and only if the file is not parsed and the tokenizer fails with e, or panics, after tokens that some parsed file starts with.",
  "all files, all tokens, lines and errors",
  "The statement relates the answer for one file to the set of all files that are parsed; the converse directions (a wrong token is never overlooked, never answered with a lexical error, never answered by a panic elsewhere) cannot be observed on single files.",
  ["src/syntactic_analyzer/parser.rs: Parser::parse, parse_document_type", "src/syntactic_analyzer/domain_parser/router.rs: parse_domain", "src/syntactic_analyzer/problem_parser/router.rs: parse_problem", "src/lexical_analyzer/tokenizer.rs: get_token, lookahead", "src/output/errors/syntactic.rs: SyntacticError", "src/output/errors/lexical.rs: LexicalError"])
p("C66", "When exactly parsing does not end",
  "Parsing a file runs for ever if and only if the file is not a text of the grammar and, from some place on, the tokenizer returns empty names without end, any number of which is acceptable after the tokens before them. Every file is in exactly one of four cases: it is parsed, it has a first wrong token, it has a first unreadable place, or it is stuck in this way.",
  "all files",
  "Non-termination cannot be observed by a test, and the condition quantifies over all numbers of repeated tokens and over all files that are parsed.",
  ["src/lexical_analyzer/tokenizer.rs: get_token, lookahead, peek_lexeme", "src/syntactic_analyzer/parser.rs: Parser::parse", "src/syntactic_analyzer/problem_parser/list_parser.rs: parse_args"])
p("C67", "Cursor and line arithmetic of the tokenizer are exact in debug and release builds",
  "However get_token and lookahead are mixed, a token is taken from the text at the cursor after blanks and comments, a read moves the cursor exactly behind the text of the token, a peek exactly in front of it, and the line is one plus the number of newlines before the token. A debug build and a release build give every caller the same answers and neither overflows, provided that the file has at most 2^32 - 2 newlines and that the caller reads an opening parenthesis before it looks ahead. With one newline more a debug build panics and a release build reports line zero; looking ahead before reading makes a debug build panic on a file that starts with a word.",
  "all files, all cursors reached by any calls, all adaptive callers and numbers of calls, both build modes, all files of the two overflowing families",
  "The overflow needs a file of four gigabytes, the underflow depends on the build mode, and the agreement is about every interleaving of reads and peeks on every file.",
  ["src/lexical_analyzer/tokenizer.rs: LexicalAnalyzer::new, get_token, lookahead, parse, skip_whitespaces, peek_lexeme, peek_number"])
p("C68", "When exactly verification crashes or does not end",
  "verify panics in exactly these cases: the parser panics on the domain file; the domain file is a problem; the checks of the domain reach an existential quantifier before anything wrong; or the domain is right and the problem file makes the parser panic or is a domain. It runs for ever in exactly these cases: the parser is stuck on the domain file, or the domain is right and the parser is stuck on the problem file. Every other run ends with warnings or with a reported error.",
  "For all domain files, all optional problem files, all panics, and all iteration orders of hash maps.",
  "Every file that does not crash would have to be run; only a characterisation from both sides shows that no other input crashes or hangs.",
  ["src/lib.rs: HDDLAnalyzer::verify", "src/semantic_analyzer/analyzers/domain_analyzer.rs: verify_domain", "src/semantic_analyzer/analyzers/problem_analyzer.rs: verify_problem", "src/syntactic_analyzer/syntax_tree/nodes/formula.rs: get_propositional_predicates"])
p("C69", "Names may be written in any script",
  "A word of letters, digits, '_' and '-' of any script, encoded in UTF-8, that does not begin with an ASCII digit or hyphen and is not reserved, is read as the name it spells, on the line on which it stands; a word with any other character is reported as an invalid identifier.",
  "For all words over all code points of Unicode, any layout before and any text after them, and any classification of the code points from U+0100 on into letters and others.",
  "There are more than a million code points and no bound on the length of words; the code looks at bytes, so a test of one accented letter says nothing about the next.",
  ["src/lexical_analyzer/tokenizer.rs: peek_lexeme, parse"])
p("C70", "The language server works on the files that URLs denote",
  "A document that is saved without its text gets the content of the file that its URL denotes. A request for a problem uses exactly the .hddl and .pddl files of the folder of this file, up to the first domain; it fails only if the URL is not that of a local file, the folder is missing, cannot be listed or has a name that is not text, or a file before the domain cannot be read. Requests for other documents do not depend on the folder.",
  "For all URLs (hosts, escapes, trailing slashes), all contents of the file system and listing orders, all stores of documents, and all iteration orders of hash maps.",
  "Tests use a few tidy paths; escapes, repeated slashes, odd folder names and files that vanish between listing and reading are unbounded, and the claim that nothing else fails is universal.",
  ["src/language_server/request_handler.rs: did_save, diagnostic", "src/language_server/diagnostic_utils.rs: classify_file, diagnose_problem"])
p("C71", "A problem is checked against its domain",
  "A request for a problem document reports no diagnostic exactly if verify accepts the problem together with the domain that it names, when this domain is in the folder.",
  "For all problems, all folders with any number of domains in any order, all stores of documents, and all iteration orders of hash maps.",
  "Which domain is used depends on the order in which the operating system lists the folder, which a test cannot vary.",
  ["src/language_server/request_handler.rs: diagnostic", "src/language_server/diagnostic_utils.rs: diagnose_problem", "src/syntactic_analyzer/parser.rs: Parser::parse"])
p("C72", "Names and layout do not matter for the metadata",
  "If a domain file is laid out differently and its names are renamed consistently, one name to one name, then get_metadata has the same outcome on both files, with the names renamed: the same class, cycle, nullable tasks and counts, the same panic, or no return.",
  "all pairs of domain files that are the same text up to layout, aliases and a one-to-one renaming; all iteration orders of hash containers",
  "There are infinitely many renamings and layouts of a file, and the outcome depends on the random order of hash maps.",
  ["src/lib.rs: HDDLAnalyzer::get_metadata", "src/semantic_analyzer/tdg.rs: TDG::new, compute_nullables, get_recursion_type, get_prefix, get_suffix"])
p("C73", "The analyses take polynomially many steps",
  "verify and get_metadata take a number of steps that is polynomial in the length of the files, so that a small file cannot keep a caller or a language server waiting.",
  "For all pairs of files, for all numbers n, for all iteration orders of hash sets",
  "A test runs files of a few sizes; growth is a statement about all sizes, and the bad case needs a hierarchy that branches at each of many levels.",
  ["src/lib.rs: verify, get_metadata", "src/semantic_analyzer/tdg.rs: get_recursion_type, compute_nullables, reachable"])
p("C74", "The recursion of the parser is as deep as the file is nested",
  "While a file is parsed, the number of calls of parse_formula that are active at the same time is bounded by how deeply the parentheses of the file are nested, so a file of ordinary nesting never overflows the stack, whatever its length.",
  "for every file, accepted or not, and every moment of the execution of parse",
  "A stack overflow aborts the process (command line tool or language server) without a diagnostic. Whether a long but flat file can cause one depends on how errors in the text interact with the loops over operands; the unit tests only parse small files, and no test can cover all lengths.",
  ["src/syntactic_analyzer/domain_parser/formula_parser.rs: parse_formula", "src/syntactic_analyzer/parser.rs: Parser::parse", "src/syntactic_analyzer/problem_parser/router.rs: parse_problem"])
p("C75", "Which semantic error is reported",
  "If the files can be parsed, then the semantic error that verify returns is the first fault found when looking at, in this order: the requirements, the type hierarchy, the predicates, the tasks, the actions and the methods of the domain, each in the order of declaration, then the objects, the initial facts, the initial tasks and the goal of the problem. For a declaration the repetition of its name comes first. For a formula all predicates come before the types of the parameters, and these before the arguments of the atoms outside quantifiers. The report has the name, lines, counts and types of that fault. verify accepts exactly if there is no fault, and crashes in the analysis exactly if an `exists` is met before any fault. Faults of the domain are reported whatever the problem file is.",
  "all domain files and problem files that can be parsed, all hash orders, all errors",
  "Files with several faults are unlimited in number; tests have one fault per file.",
  ["src/semantic_analyzer/analyzers/domain_analyzer.rs: verify_domain", "src/semantic_analyzer/analyzers/problem_analyzer.rs: verify_problem", "src/semantic_analyzer/type_checker/domain_type_checker.rs: check_formula, is_task_consistent", "src/semantic_analyzer/type_checker/problem_type_checker.rs", "src/semantic_analyzer/undefined_elements.rs", "src/lib.rs: HDDLAnalyzer::verify"])
p("C76", "The order of declarations does not matter for the metadata",
  "If two domain files contain the same declarations in different orders and layouts, then get_metadata returns metadata for one exactly if for the other; the counts of actions, tasks and methods agree; one is reported non-recursive exactly if the other is; and if the same tasks are reported to be nullable, the reported class of recursion is the same. If both domains are accepted, every result for one of them, that is nullable tasks, class, counts and tasks warned about, is possible for the other one. For accepted domains in which every task with a method that has an erasable subtask is itself erasable, the reported nullable tasks, the class and the tasks warned about are the same.",
  "all pairs of domain files that parse to the same declarations up to order and lines, all hash iteration orders for each of them",
  "There are unboundedly many declarations and orders; the analyses number tasks and methods by their position and search in that order, so a dependence on the order shows only for particular combinations of positions and hash orders.",
  ["src/semantic_analyzer/tdg.rs: TDG::new, compute_nullables, get_recursion_type", "src/output/metadata.rs: MetaData", "src/lib.rs: HDDLAnalyzer::get_metadata"])
p("C77", "Additional declarations add recursion and remove warnings",
  "If declarations are added to a domain, a domain reported recursive is still reported recursive. If the extended domain is accepted, no compound task has the name of an action, and all tasks reported nullable are so still, then the reported class of recursion is not lower than before. If moreover the first domain is accepted and uniform (every task with a method that has an erasable subtask is itself erasable), then all tasks reported nullable before are so afterwards and no task of the first domain is newly warned about.",
  "all pairs of domain files one of which parses to an extension of what the other parses to, all hash iteration orders for each of them",
  "Monotonicity relates runs on two files with unboundedly many declarations; tests compare at most single pairs.",
  ["src/semantic_analyzer/tdg.rs: compute_nullables, get_recursion_type, reachable", "src/semantic_analyzer/analyzers/domain_analyzer.rs: verify_domain", "src/output/metadata.rs: RecursionType"])
p("C78", "Acceptance respects the type hierarchy",
  "If verify accepts a domain file (with a problem file), it still accepts the files after types have been changed along the type hierarchy in the safe direction: constants, parameters of methods, objects and parameters of the initial task network may get more special types, parameters of predicates and of compound tasks more general ones.",
  "all pairs of domain files and problem files that differ in types in this way (and in layout), all hash iteration orders",
  "Substitutability relates the verdicts on two files for all hierarchies and all changes of types in them; tests look at single files.",
  ["src/semantic_analyzer/type_checker/domain_type_checker.rs: is_task_consistent, check_formula", "src/semantic_analyzer/type_checker/problem_type_checker.rs", "src/semantic_analyzer/type_checker/generic_type_checker.rs", "src/lib.rs: HDDLAnalyzer::verify"])
p("C79", "Accepted problems can be extended step by step",
  "If verify accepts a problem for a domain, and another problem file has at least the same objects, the same initial task network, the same goal or none, and any facts, where no additional object has the name of a constant or of a parameter of the initial task network, then verify accepts that file exactly if its object names are distinct, the types of the additional objects are known, and each additional fact is an atom of a declared predicate with fitting arguments. Facts that the first problem has need not be checked again.",
  "all domain files, all pairs of problem files related in this way (up to layout), all hash iteration orders",
  "The claim relates the verdicts on two problem files with unboundedly many objects and facts.",
  ["src/semantic_analyzer/analyzers/problem_analyzer.rs: verify_problem", "src/semantic_analyzer/type_checker/problem_type_checker.rs", "src/lib.rs: HDDLAnalyzer::verify"])
p("C80", "Unused declarations can be removed",
  "If verify accepts a domain file (with a problem file), it still accepts the files after any requirements and methods, and any types, constants, predicates, compound tasks and actions that the remaining domain (and problem) does not use, have been removed; from the problem also facts, the goal, the initial task network, and objects that the remaining problem does not use. A type is used if it is given to a symbol or is the parent of a type; a removed type must not be the only one that makes a used type known (a type is known if it is declared or the parent of a declared type).",
  "all pairs of domain files and problem files related in this way (up to layout), all hash iteration orders",
  "The claim relates the verdicts on two files for unboundedly many declarations and all ways to use them; tests look at single files.",
  ["src/semantic_analyzer/analyzers/domain_analyzer.rs: verify_domain", "src/semantic_analyzer/analyzers/problem_analyzer.rs: verify_problem", "src/semantic_analyzer/type_checker/generic_type_checker.rs", "src/semantic_analyzer/type_checker/domain_type_checker.rs", "src/semantic_analyzer/type_checker/problem_type_checker.rs", "src/lib.rs: HDDLAnalyzer::verify"])
p("C81", "Every model can be written as a file and is read back",
  "The domains and problems that the parser produces are exactly those of a simple shape: types together with their positions, untyped names last in each list, no implications and no empty operands in formulas, weights only in the branches of `probabilistic`, no orderings without `:ordering`. Every domain and problem of that shape, written out in a fixed order of blocks with any layout and comments, is read back up to line numbers, and verify accepts the written files if and only if the model is well-formed. Exception: the closing parenthesis of a method (or initial task network) with `:ordered-subtasks` and `:constraints` ends the file, so the methods (or the goal) after it are not read; if these parentheses are left out, everything is read back. If names consist of letters, digits, `_` and `-`, such a file exists.",
  "all domain and problem trees, all layouts of the written file, all files, all hash iteration orders",
  "It is a round trip over all syntax trees and all layouts; tests read a few fixed files.",
  ["src/syntactic_analyzer/parser.rs: Parser::parse", "src/syntactic_analyzer/domain_parser/router.rs", "src/syntactic_analyzer/domain_parser/formula_parser.rs", "src/syntactic_analyzer/domain_parser/method_parser.rs", "src/syntactic_analyzer/domain_parser/action_parser.rs", "src/syntactic_analyzer/problem_parser/router.rs", "src/syntactic_analyzer/problem_parser/init_tn_parser.rs", "src/syntactic_analyzer/problem_parser/list_parser.rs", "src/syntactic_analyzer/syntax_tree", "src/lib.rs: HDDLAnalyzer::verify"])
p("C82", "Metadata and warnings only depend on names and task networks",
  "The outcome of get_metadata (the metadata, a panic, or none) is determined by the skeleton of the domain: the names of tasks, actions and methods, and for each method the names of its subtasks and their orderings. Types, constants, predicates, requirements, parameters, arguments, preconditions, effects, constraints, line numbers, and labels of totally ordered subtasks can be changed without an effect on it. If two files with the same skeleton are accepted, verify warns about the same tasks in the same order. The skeleton of an accepted domain, written as a file, is accepted, so for every accepted domain there is one without parameters and formulas with the same metadata and warnings.",
  "all domain files, all pairs of files with the same skeleton, all hash iteration orders",
  "It relates all files with a common part; tests compare single outputs with fixed values.",
  ["src/lib.rs: HDDLAnalyzer::get_metadata, HDDLAnalyzer::verify", "src/semantic_analyzer/tdg.rs: TDG::new, TDG::compute_nullables, TDG::get_recursion_type, TDG::get_prefix, TDG::get_suffix, TDG::reachable", "src/semantic_analyzer/analyzers/domain_analyzer.rs"])
p("C83", "Formulas can be rewritten by laws of logic",
  "If preconditions and effects of a domain are rewritten by laws of logic anywhere inside the formulas (commutativity, associativity and idempotence of `and` and `or`, single operands, double negation, De Morgan, distributivity, merging, reordering and distributing quantifiers), verify accepts the new file if and only if it accepts the old one, warns about the same tasks, and get_metadata gives the same metadata. Goals can moreover be rewritten by exchanging `not exists` with `forall not` and `not forall` with `exists not`, and an absent goal is the empty conjunction. The laws keep the meaning of formulas. Not for preconditions: the exchange of quantifiers (verify crashes on `exists`), arbitrary formulas of the same meaning, and the addition of a precondition that is always true.",
  "all domain and problem files, all sequences of rewriting steps at any depth, all hash iteration orders",
  "It relates infinitely many pairs of files; tests have no two equivalent formulas.",
  ["src/lib.rs: HDDLAnalyzer::verify, HDDLAnalyzer::get_metadata", "src/semantic_analyzer/analyzers/domain_analyzer.rs", "src/semantic_analyzer/analyzers/problem_analyzer.rs", "src/syntactic_analyzer/syntax_tree/nodes/formula.rs: Formula::get_propositional_predicates"])
p("C84", "What the order of subtasks influences",
  "If in the task networks of an accepted domain (and of the initial task network of a problem) labels, orderings and constraints are changed and subtasks are listed in another order, so that each method still has the same calls, verify accepts the new files if and only if no ordering has a cycle, and the domain stays recursive or not. If the subtasks are listed in the same order, get_metadata gives the same nullable tasks and counts and verify warns about the same tasks, in the same order; only the class of recursion can differ. If they are listed in another order, nullable tasks and warnings are the same as sets in domains where every task with an erasable subtask is erasable, and in other accepted domains every result for one file is possible for the other one with some hash iteration order. Not in general: the class of recursion differs between `:ordered-subtasks` and `:subtasks` with an `:ordering` that gives the same total order, and in domains of the second kind nullable tasks and warnings of two runs can differ.",
  "all domain and problem files, all changes of labels, orderings and constraints, all permutations of subtasks, all hash iteration orders",
  "It relates infinitely many pairs of files; tests compare no two versions of a task network.",
  ["src/lib.rs: HDDLAnalyzer::verify, HDDLAnalyzer::get_metadata", "src/semantic_analyzer/tdg.rs: TDG::compute_nullables, TDG::reachable, TDG::get_recursion_type", "src/semantic_analyzer/analyzers/domain_analyzer.rs", "src/semantic_analyzer/analyzers/problem_analyzer.rs"])
p("C85", "Objects can become constants and constants objects",
  "If objects of an accepted problem become constants of its domain, verify accepts the new domain file, alone and with the new problem file, provided that no constant is then declared twice and no parameter of the initial task network has the name of such an object. Conversely, if constants become objects, the files stay accepted exactly if the domain is still accepted without these constants, their types are declared and no object has the same name; a domain that does not use them is still accepted. The conditions are needed: types of constants are not checked while those of objects are, objects hide parameters of the initial task network and constants of the same name, constants do not.",
  "all domain and problem files, all sets of moved objects, all hash iteration orders",
  "It relates infinitely many pairs of files; tests compare no two versions of a domain and problem.",
  ["src/lib.rs: HDDLAnalyzer::verify", "src/semantic_analyzer/analyzers/problem_analyzer.rs: ProblemSemanticAnalyzer::verify_problem", "src/semantic_analyzer/type_checker/problem_type_checker.rs", "src/semantic_analyzer/type_checker/domain_type_checker.rs"])
p("C86", "Parts of a domain can be analysed separately",
  "If a domain consists of two accepted parts with different compound tasks, which may have types, constants, predicates and actions in common, and no constant is declared twice, then verify accepts it exactly if no name is declared twice and the types have no cycle. It is recursive exactly if one of the parts is. If both parts are uniform, a task is reported to be nullable, or is warned about, exactly if it is in its own part, and the class of recursion is the higher one of the classes of the parts. Without uniformity this fails: a task that is warned about and never reported to be nullable in one part, whatever the hash order, can be reported to be nullable and not be warned about after the other part has been added.",
  "all domain files that consist of two parts, all hash iteration orders",
  "It relates infinitely many triples of files; tests look at single domains, and the counterexample only shows up for some hash orders.",
  ["src/lib.rs: HDDLAnalyzer::verify, get_metadata", "src/semantic_analyzer/tdg.rs: compute_nullables, get_recursion_type, reachable", "src/semantic_analyzer/analyzers/domain_analyzer.rs"])
p("C87", "When get_metadata and to_json crash or do not end",
  "On a domain file get_metadata panics only if a method mentions a task or action that is not declared, or a method with a subtask that leads back to it has an ordering with the wrong number of constraints or with something that is not a label; it runs for ever only if there are no compound tasks, or in such an ordering a label of the subtask is part of the label that follows it or is followed by a cycle; if one of these defects is present it does not return, and it returns metadata otherwise. On an accepted domain with compound tasks it can still panic, and it runs for ever only because of labels that are part of other labels. If a domain has defects of both kinds, the hash order can decide which of the two happens. On other files get_metadata does what the parser does. to_json panics or runs for ever exactly if the parser does on one of the files it reads, or a file is of the wrong kind.",
  "all domain and problem files, all hash iteration orders",
  "Not ending cannot be observed by a test, and that nothing else crashes or runs for ever is a statement about all files.",
  ["src/lib.rs: HDDLAnalyzer::get_metadata, to_json", "src/semantic_analyzer/tdg.rs: TDG::new, compute_nullables, get_recursion_type, get_prefix, get_suffix"])
p("C88", "A message identifies its error",
  "From nothing but the bytes of an error message or a warning one can tell which error it is: its kind, the kind of thing it is about, the name, the types and the counts in it, and its lines. Hence two analyses that print the same report the same error, or accept with the same warnings. There are exactly these exceptions: the message about a wrong number of arguments of a task does not have the line; the message about an argument of a wrong type does not tell whether it is that of a predicate or of a task; a number found instead of something else is shown by its value only.",
  "all domain and problem files, all hash iteration orders, all error kinds",
  "That names, types and numbers cannot be confused with the fixed words around them is a statement about all names that the tokenizer lets through, among them names with quotation marks, full stops and words such as `is`.",
  ["src/output/errors/lexical.rs: Display for LexicalError", "src/output/errors/syntactic.rs: Display for SyntacticError", "src/output/errors/semantic.rs: Display for SemanticErrorType, DuplicateError, TypeError", "src/output/warnings.rs: Display for WarningType", "src/lexical_analyzer/token_types.rs: Display for Token", "src/bin/hddl_analyzer/main.rs"])
p("C89", "The tokenizer recurses once per comment",
  "When a token is read or looked at, the calls of LexicalAnalyzer::parse are nested exactly as deep as there are comments between the cursor and the token, plus one, whatever was read before; if a file never has more than k comments in a row, never more than k + 1 calls are nested. Hence there is no bound that holds for all files: k comment lines in front of any accepted file, 2k bytes, leave the verdict as it is and make the first read nest k + 1 calls.",
  "all files, all sequences of reads and looks, debug and release builds, all k",
  "The depth grows with the file; a test has a fixed file and a fixed stack.",
  ["src/lexical_analyzer/tokenizer.rs: LexicalAnalyzer::parse (line 129), get_token, lookahead"])
p("C90", "A problem sees the interface of its domain and nothing else",
  "If two accepted domains have the same interface - types with their parents, constants with their types, predicates, tasks and actions with the types of their parameters -, then verify treats every file given as problem alike with both: the identical error of tokenizer, parser or analysis, the same crash, no end with both, or accepted with both. The name, requirements, functions and methods of the domain, preconditions and effects, parameter names, whether something is a task or an action, and the order and lines of declarations have no influence. Conversely, whatever of the interface decides about arguments can be found out: two accepted domains report the same errors for all problem files if and only if they know the same types, have the same predicates and callable tasks with the same parameter types, the same types and constants fit these parameters, and constants that do not fit some parameter have the same type.",
  "all pairs of accepted domain files, all byte strings as problem files, all hash orders",
  "Quantifies over all problem files for pairs of domains; no finite set of problems shows that a part of the domain never matters.",
  ["src/lib.rs: HDDLAnalyzer::verify", "src/semantic_analyzer/analyzers/problem_analyzer.rs: ProblemSemanticAnalyzer::verify_problem", "src/semantic_analyzer/analyzers/symbol_table.rs: SymbolTable"])
p("C91", "The answer moves with the text",
  "If two files consist of the same tokens with other blanks, comments, line breaks and alternative spellings, up to a place from which on they agree byte by byte (in particular, up to the end), then verify gives the same answer to both: the same error of tokenizer, parser or analysis with the same names, numbers, types and expected words, the same crash, no end for both, or the same warnings in the same order; and each line in the answer is the line of the corresponding place. So layout of k lines put before an arbitrary file adds k to every reported line, and layout inserted at the end of line L adds k to the reported lines behind L and keeps the others. With a problem, warnings move with the domain file, and errors move with the problem file if the domain is accepted and with the domain file otherwise. If moreover the names are replaced one by one by other names in parsed files, the answer is the one with the replaced names and the corresponding lines.",
  "all pairs of files related in this way, with any relation between their lines; all hash orders",
  "Relates the whole answers, with all lines, for infinitely many layouts of every file, including files that are rejected by the tokenizer or parser.",
  ["src/lexical_analyzer/tokenizer.rs: LexicalAnalyzer", "src/syntactic_analyzer/parser.rs: Parser::parse", "src/semantic_analyzer/analyzers/domain_analyzer.rs: DomainSemanticAnalyzer::verify_domain", "src/semantic_analyzer/analyzers/problem_analyzer.rs: ProblemSemanticAnalyzer::verify_problem", "src/output/warnings.rs: WarningInfo", "src/lib.rs: HDDLAnalyzer::verify"])
p("C92", "The blocks in which declarations are written have no effect",
  "If two domain files declare the same things, sort by sort and in the same order, then verify gives the same answer to both: the same warnings in the same order, the same error with the same names, types and numbers, or the same crash; each line in the answer is the line of the corresponding place; and get_metadata returns the same. So blocks can be split and merged, empty blocks added or dropped, and blocks exchanged with neighbours that declare other sorts of things, and exactly these changes keep the declarations; a type in a list of names can be written once for several names or again for each of them. For a problem, likewise, and blocks that are overridden by a later one can be dropped. The order of declarations of the same sort can decide which error is reported.",
  "all pairs of parsed files whose syntax trees agree up to lines, with any relation between the lines of corresponding places; all block lists; all hash orders",
  "Relates whole answers for every way of grouping the declarations of every file.",
  ["src/syntactic_analyzer/domain_parser/router.rs: Parser::parse_domain", "src/syntactic_analyzer/problem_parser/router.rs: Parser::parse_problem", "src/syntactic_analyzer/problem_parser/list_parser.rs: Parser::parse_args", "src/syntactic_analyzer/syntax_tree/domain.rs: DomainAST", "src/syntactic_analyzer/syntax_tree/problem.rs: ProblemAST", "src/semantic_analyzer/analyzers/domain_analyzer.rs: DomainSemanticAnalyzer::verify_domain", "src/semantic_analyzer/analyzers/problem_analyzer.rs: ProblemSemanticAnalyzer::verify_problem", "src/lib.rs: HDDLAnalyzer::verify, HDDLAnalyzer::get_metadata"])
p("C93", "What is not supported is rejected where it is used",
  "If a file uses something that the analyser does not support, before its definition is complete, then it is never taken for something else: the file is not parsed, and verify answers with a syntax error on the line of the unsupported part or an earlier one (or, if a problem file could have ended before, the parser panics). If the text before is right, the error names the token at which the unsupported part shows, and its line. Unsupported are: an operator outside of the places for it (implications and numeric comparisons anywhere, negated facts and function values in the initial state, anything but conjunctions of subtasks), anything but a name after the dash of a type (`either`), a name applied to something in parentheses or to a number (conditional effects, preferences, assignments), and numbers outside of formulas. Only the shape counts: without inner parentheses `(when ..)` is read as a predicate and needs a declaration.",
  "all files and all places in them; all hash orders; all problem files beside an accepted domain",
  "Tests show single unsupported constructs in single contexts; here every text that is parsed is shown to contain none.",
  ["src/syntactic_analyzer/domain_parser/formula_parser.rs: Parser::parse_formula", "src/syntactic_analyzer/problem_parser/list_parser.rs: Parser::parse_args", "src/syntactic_analyzer/domain_parser/predicate_parser.rs: Parser::parse_predicates", "src/syntactic_analyzer/domain_parser/router.rs: Parser::domain_parser", "src/syntactic_analyzer/problem_parser/router.rs: Parser::problem_parser", "src/lib.rs: HDDLAnalyzer::verify"])
p("C94", "A syntax error asks for what would have been right",
  "If a file is answered with a syntax error, then the text of what was expected can be trusted: the error is reported at the first wrong token, and every token that the text asks for (an opening or closing parenthesis, a name, a certain keyword, one of a list) would have been right in that place: some file that starts with the text before and this token is parsed. In particular the text never asks for what was found. There is always such a token, so the file can be repaired from there. Every text has one meaning, except `subtask declarations` and `a formula following the probability`, which are used for the opening parenthesis and for what follows it. The converse does not hold: the text need not ask for everything that would have been right.",
  "all files, alone or as problem files beside an accepted domain; all hash orders; all tokens that the text asks for, in all spellings",
  "There are seventy messages in different places of the parser; a test compares one message with one text, and cannot show that following the advice of a message leads to a file that is parsed, in every context in which the place is reached.",
  ["src/syntactic_analyzer/domain_parser/router.rs: Parser::domain_parser", "src/syntactic_analyzer/problem_parser/router.rs: Parser::problem_parser", "src/syntactic_analyzer/domain_parser/formula_parser.rs: Parser::parse_formula", "src/syntactic_analyzer/parser.rs: Parser::parse", "src/output/errors/syntactic.rs: SyntacticError", "src/lib.rs: HDDLAnalyzer::verify"])
p("C95", "The exit code tells whether the files were accepted",
  "A script that calls the verify command can tell from its exit code whether the files were accepted: 0 for accepted files, another code for rejected files and crashes.",
  "all file contents, with and without problem file; all hash orders; unreadable files",
  "A test sees one exit code; the claim is about all files, and it fails for every rejected file.",
  ["src/bin/hddl_analyzer/main.rs: main", "src/lib.rs: HDDLAnalyzer::verify", "src/output/errors/generic.rs: ParsingError"])
p("C96", "Faults are local",
  "Whatever is reported about a domain is also reported about an excerpt of it that can be put into a report: two requirements, or the types, or the types with two predicates or two tasks, or two actions with the types, constants and predicates, or two methods with the types, constants, predicates, tasks and actions. Likewise for a problem: two objects, or the objects with one fact, the initial task network, or the goal. Conversely every excerpt of accepted files is accepted; so files are accepted exactly if their excerpts are.",
  "all domain and problem files; all files in which the excerpt stands; all hash orders",
  "That a fault does not need the rest of the file is a claim about all files with that fault; a test fixes the rest of the file.",
  ["src/semantic_analyzer/analyzers/domain_analyzer.rs: DomainSemanticAnalyzer::verify_domain", "src/semantic_analyzer/analyzers/problem_analyzer.rs: ProblemSemanticAnalyzer::verify_problem", "src/lib.rs: HDDLAnalyzer::verify"])
p("C97", "Names of parameters are local",
  "Renaming the variables of each action and each method by itself (keeping different variables apart and leaving the names of constants alone), and the variables in the declarations of predicates and tasks in any way, does not change the verdict about a domain, nor its metadata, nor the tasks that are warned about, nor any answer for any problem with that domain; a report about the domain is the same except that it names the variable by its new name. Likewise for the parameters of the initial task network of a problem. Constants must be left alone because variables share their names with constants: ?c hides the constant c.",
  "all domain and problem files; all renamings, one for each declaration; all layouts of the renamed files; all hash orders",
  "Independence of the choice of names is a relation between all files and all renamings of their variables; a test compares two files.",
  ["src/semantic_analyzer/analyzers/domain_analyzer.rs: DomainSemanticAnalyzer::verify_domain", "src/semantic_analyzer/type_checker/domain_type_checker.rs: DomainTypeChecker::check_formula", "src/semantic_analyzer/type_checker/problem_type_checker.rs: ProblemTypeChecker::check_subtask_instantiation"])
p("C98", "Each faulty action or method takes one repair",
  "Suppose everything in a domain but the insides of its actions and methods is in order (requirements, types, predicates and tasks, and no two actions or methods with the same name). Then verify reports something about the first faulty action, or, if no action is faulty, about the first faulty method, and what stands after it (in the list of actions, or among the methods) could be anything without any difference to the answer. Replacing one faulty action or method by a correct one with the same name (and, for actions, the same types of parameters) never makes another one faulty or correct; so the domain is accepted after exactly as many such repairs as there are faulty actions and methods, in whatever order they are made, and not earlier. Such repairs exist unless there are methods and no tasks at all. If the rest is not in order, no number of such repairs leads to acceptance.",
  "all domain files; all sequences of repairs in any order; all layouts of the files in between; all hash orders",
  "It is about all sequences of edits of all files; a test repairs one file in one order.",
  ["src/semantic_analyzer/analyzers/domain_analyzer.rs: DomainSemanticAnalyzer::verify_domain", "src/lib.rs: HDDLAnalyzer::verify"])
p("C99", "A file that was cut off is noticed, except between the blocks of a problem",
  "If a domain file is parsed, there is a place in it, a closing parenthesis, such that whatever follows makes no difference, and every file that consists of the bytes up to some place before it is not parsed: verify, get_metadata and to_json never succeed with it, and verify never reports anything about its meaning. If the parser reports a syntactic or lexical error for an initial part of any file that is parsed, domain or problem, cut off at any byte, then on the last line of this part. An initial part of a problem file is parsed exactly if it contains the whole definition or ends behind a block, and then as the problem with the first blocks of the file. So a problem file that was cut off there can be accepted although the whole file is not, and the other way round. Cut off within a name or a comment, a file can also make the parser run for ever or panic.",
  "all domain and problem files that are parsed; all places at which they are cut off, also within tokens and comments; all hash orders",
  "A test cuts a few files at a few places; the claim is about every byte of every file.",
  ["src/syntactic_analyzer/parser.rs::parse", "src/syntactic_analyzer/problem_parser/router.rs::parse_problem", "src/syntactic_analyzer/domain_parser/router.rs::parse_domain", "src/lexical_analyzer/tokenizer.rs::parse", "src/lib.rs: HDDLAnalyzer::verify"])
p("C100", "Types only cause type errors",
  "If verify accepts a domain file (with a problem file), it still accepts them when all types are removed: the :types block and the types of constants, parameters, variables, objects and arguments; the warnings are about the same tasks and the metadata is the same. The files without types are accepted exactly if the domain and the problem are well-formed except for types. If they are accepted, then the files with types are accepted or the error that is reported is about types: cyclic types, an undefined type, or an argument whose type does not fit. So every other error (and a panic) remains a reason for rejection when the types are removed.",
  "all domain and problem files that are parsed, all files that are the same up to layout and the missing types, all hash orders",
  "A test compares a few files with and without types; the claim is about all of them and about every error that can be reported.",
  ["src/semantic_analyzer/analyzers/domain_analyzer.rs: verify_domain", "src/semantic_analyzer/analyzers/problem_analyzer.rs: verify_problem", "src/semantic_analyzer/type_checker/domain_type_checker.rs", "src/semantic_analyzer/type_checker/generic_type_checker.rs", "src/lib.rs: HDDLAnalyzer::verify"])
p("C101", "Parameters can be instantiated",
  "If verify accepts a domain, it still accepts it when its methods are replaced by instances, any number of each and with any different names: parameters are replaced by constants or by other parameters whose types fit, unused parameters may be dropped or added, and the new parameters do not hide constants that are used. If each method is replaced by one instance with the same name, the metadata and the tasks that are warned about are the same. If verify accepts a problem, it still accepts it, with the same warnings, when the initial task network is replaced by an instance, whose parameters are replaced by objects, constants or other parameters. The converse does not hold: all instances of a method that is rejected can be accepted.",
  "all domain and problem files that are parsed, all substitutions for which types fit, all files that are the same up to layout, all hash orders",
  "A test instantiates a few methods; the claim is about all substitutions in all domains.",
  ["src/semantic_analyzer/analyzers/domain_analyzer.rs: verify_domain", "src/semantic_analyzer/analyzers/problem_analyzer.rs: verify_problem", "src/semantic_analyzer/type_checker/domain_type_checker.rs: check_formula, is_task_consistent", "src/semantic_analyzer/type_checker/problem_type_checker.rs", "src/lib.rs: HDDLAnalyzer::verify, get_metadata"])
p("C102", "Methods can be split",
  "If some consecutive subtasks of a totally ordered method are moved to a new method of a new task that is called with all parameters in their place, verify accepts the new domain if and only if it accepts the old one and the types of the parameters of the method are known; then it accepts the same problems (except for problems that call the new task). The old tasks can be decomposed into the same as before: the same are erasable, refinable, reach actions, and reach each other. Where metadata is computed, it has one more task and one more method, and the domain stays recursive or not. If no task name is an action name and every task with an erasable subtask is erasable, before and after, the same old tasks are warned about and reported nullable. The types have to be known because verify checks those of tasks, but not those of methods without precondition; and in other domains splitting a method can hide the warning about its task.",
  "all domain files that are parsed, all methods with total order, all ways to choose the subtasks, all fresh names, all files that are the same up to layout, all problem files, all hash orders",
  "A test splits a few methods of a few domains; the claim is about all splits in all domains.",
  ["src/semantic_analyzer/analyzers/domain_analyzer.rs: verify_domain", "src/semantic_analyzer/tdg.rs: TDG::new, compute_nullables, reachable, get_recursion_type", "src/semantic_analyzer/type_checker/domain_type_checker.rs: is_task_consistent", "src/lib.rs: HDDLAnalyzer::verify, get_metadata"])
p("C103", "Effects are printed while they are parsed",
  "While a domain is parsed, the parser builds the text of the effect of every action (and drops it). If numbers with a fraction are printed no longer than they are written, these texts together are at most eight times as long as the file. The number of bytes written to build them, counting the strings in between, is at most 16·(h+1) times the length of the file if no effect is nested deeper than h, and at most 16 times the square of the length in any case. The square cannot be improved except for the factor: for every k there is an accepted domain of length 8k+70 that follows the grammar, for which 2(k+1)² bytes are written for a text of 2(k+1) bytes.",
  "all domain files that are parsed, all bounds on the nesting; the family of files for all k",
  "Parsing is fast on all test files; that the time for nested effects grows with the square of their size, but no faster, is a claim about all files.",
  ["src/syntactic_analyzer/domain_parser/action_parser.rs: parse_action", "src/syntactic_analyzer/syntax_tree/nodes/formula.rs: Display for Formula", "src/syntactic_analyzer/syntax_tree/nodes/predicate.rs: ToString for Predicate", "src/lib.rs: HDDLAnalyzer::verify"])
p("C104", "The output of the commands can be read back",
  "From nothing but the bytes that the commands verify and metadata write to standard output and standard error one can read the result. For verify: whether the files are accepted, and then the name and line of every warning in order, or which error was reported (up to the exceptions of C88). For metadata: the class of recursion, the tasks and methods of a cycle of the domain if there is one, the nullable tasks in order, and the numbers of actions, tasks and methods, or the error. Hence runs that print the same bytes have the same result.",
  "all domain and problem files for which the commands end normally, all hash orders, all environments in which numbers with a fraction are printed without quotation marks",
  "A test compares the output for a few files. That no names, cycles or lists of tasks can make two different results look the same is a claim about all files.",
  ["src/bin/hddl_analyzer/main.rs: main", "src/output/metadata.rs: Display for MetaData, Display for RecursionType, format_task_pairs", "src/output/warnings.rs: Display for WarningType", "src/lib.rs: HDDLAnalyzer::verify, get_metadata"])
p("C105", "Labels of subtasks are local, and of orderings only matters what they order",
  "The labels of subtasks can be chosen anew in every method and in the initial task network, and ordering constraints can be replaced by others that order the same labels. verify then gives the same verdict, the same report (up to line numbers) if it rejects, and warns about the same tasks in the same order; no problem can tell the two domains apart. get_metadata gives the same metadata wherever it gives any for both files, and if it is kept which labels occur inside which others, it gives metadata for both files or for none. Not kept by get_metadata: a constraint that follows from two others can make it crash.",
  "all pairs of domain (and problem) files that parse and differ in labels and orderings only, all hash orders",
  "Tests compare a few spellings. Labels are looked up in maps and compared by containment in the code, so that no choice of labels leaks into a result is a claim about all files.",
  ["src/syntactic_analyzer/syntax_tree/nodes/htn.rs: HTN::is_acyclic", "src/semantic_analyzer/analyzers/domain_analyzer.rs: verify_domain", "src/semantic_analyzer/tdg.rs: get_prefix, get_suffix, get_recursion_type", "src/semantic_analyzer/analyzers/problem_analyzer.rs: verify_problem", "src/lib.rs: HDDLAnalyzer::verify, get_metadata"])
p("C106", "Tasks that are warned about can be removed",
  "If compound tasks, whichever, and the methods that are for them or have them as subtasks are removed from an accepted domain, verify still accepts it; problems that do not ask for the removed tasks stay accepted or rejected, and problems that do are rejected. If only tasks that verify warns about are removed, and no action has their name, no plan is lost: in every problem, the same sequences of actions can be obtained by decomposing the initial network. Repeating this ends: from every accepted domain some tasks without refinement can be removed so that verify warns about nothing any more except tasks with the name of an action, and every problem has the same plans. One removal need not be enough: new warnings can come up.",
  "all domain files, sets of compound tasks, problem files and problems, networks, sequences of actions, and all hash iteration orders before and after",
  "Tests show single domains; that no plan of any length of any problem is lost, and that repeated removal ends for every domain, are statements about unboundedly many decompositions and removals.",
  ["src/semantic_analyzer/analyzers/domain_analyzer.rs: verify_domain", "src/semantic_analyzer/tdg.rs: reachable, compute_nullables", "src/lib.rs: HDDLAnalyzer::verify"])
p("C107", "The parts of a problem are checked one by one",
  "Take from a problem the objects and nothing else, or with them one fact of the initial state, one atom of the goal (outside quantifiers), the initial task network without subtasks, or the initial task network with one of its subtasks. The problem is accepted (with an accepted domain) if and only if each of these small problems is. Whatever is reported about the problem is reported, with the same names, types and numbers and at the corresponding line, about one of the small problems. Each faulty fact, each faulty subtask and a faulty goal take one repair: after n replacements of faulty ones by correct ones the problem is accepted if and only if n is the number of faults it had, and objects and orderings are in order.",
  "all domain files, problem files, parts of the problem, files in which the parts are written, sequences of repairs, and hash orders",
  "Tests try single faults. That no combination of facts, goals and subtasks matters, so that faults can be found and mended one by one, is a statement about all problems.",
  ["src/semantic_analyzer/analyzers/problem_analyzer.rs: verify_problem", "src/semantic_analyzer/type_checker/problem_type_checker.rs: check_predicate_instantiation, check_subtask_instantiation", "src/lib.rs: HDDLAnalyzer::verify"])
with open(os.path.join(os.path.dirname(__file__), "..", "properties.jsonl"), "w") as f:
    for x in P: f.write(json.dumps(x) + "\n")
print(len(P))
