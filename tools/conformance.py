#!/usr/bin/env python3
"""Writes lean/Verif/Conformance.lean: the inputs of the unit tests of /repo, taken from the test files, with the
assertions of the tests (the table below) as checks of the model."""
import os
import re

BASE = '/repo/src/'
OUT = os.path.join(os.path.dirname(os.path.abspath(__file__)), '..', 'lean', 'Verif', 'Conformance.lean')


def tests(path):
    for part in re.split(r'(?=#\[test\])', open(BASE + path).read())[1:]:
        name = re.search(r'fn (\w+)', part).group(1)
        texts = [m.group(1).replace('\\n', '\n').replace('\\t', '\t')
                 for m in re.finditer(r'String::from\(\s*"((?:[^"\\]|\\.)*)"\s*,?\s*\)\s*\.into_bytes', part, re.S)]
        yield name, texts


def lit(t):
    return 'b!"' + t.replace('\\', '\\\\').replace('"', '\\"') + '"'


def b(s):
    return 'b!"%s"' % s


def dup(c, s, x, y): return ('dom', '.%s ⟨%s, %d, %d⟩' % (c, b(s), x, y))
def undef(c, s, x): return ('dom', '.%s ⟨%s, %d⟩' % (c, b(s), x))
def arity(c, s, e, f, x): return ('dom', '.%s ⟨%s, %d, %d, %d⟩' % (c, b(s), e, f, x))
def ty(c, e, f, v, x): return ('dom', '.%s ⟨some %s, some %s, %s, %d⟩' % (c, b(e), b(f), b(v), x))


L = 'lexical_analyzer/tests/lexer_tests.rs'
H = 'lexical_analyzer/tests/error_handling_tests.rs'
S = 'syntactic_analyzer/tests/syntax_tests.rs'
D = 'semantic_analyzer/tests/duplicate_tests.rs'
U = 'semantic_analyzer/tests/undefined_tests.rs'
T = 'semantic_analyzer/tests/type_checking_tests.rs'
C = 'semantic_analyzer/tests/cycle_detection_tests.rs'
W = 'semantic_analyzer/tests/warning_tests.rs'
P = 'semantic_analyzer/tests/problem_test.rs'
G = 'semantic_analyzer/tests/tdg_tests.rs'

KW = ('define domain problem requirements objects types constants predicates init htn action parameters method '
      'precondition effect subtasks subtasks orderedSubtasks orderedSubtasks ordering ordering constraints').split()


def toks(l): return ('expr', 'tokens %d %%0 == some [%s]' % (len(l), ', '.join(l)))
def kinds(names): return [('.kw .' + k) for k in names]


def syms(l): return '[' + ', '.join('(%s, %s)' % (b(n), 'some ' + b(t) if t else 'none') for n, t in l) + ']'


TYPED = [('Port', 'Object'), ('AbstractDevice', 'Object'), ('AbstractCable', 'AbstractDevice'),
         ('Device', 'AbstractDevice'), ('PlugType', 'Enum'), ('PlugFace', 'Enum'), ('PlugDirection', 'Enum'),
         ('SignalType', 'Enum')]
A1 = '(d.actions.map fun a => (a.name, typed a.params)) == [(%s, %s)]' % (
    b('a_1'), syms([('p_1', 't1'), ('p_2', 't1'), ('p_3', 't2')]))
C1 = '(d.tasks.map fun t => (t.name, typed t.params)) == [(%s, %s)]' % (
    b('c_1'), syms([('p_1', 't1'), ('p_2', 't1'), ('p_3', 't2')]))
M1 = ('(d.methods.map fun m => (m.name.name, m.task.name, m.taskTerms.map (·.name), subtasks m.tn)) == '
      '[(b!"m_1", b!"deliver_abs", [b!"p1", b!"l1", b!"l2"], '
      '[(none, b!"pickup", [b!"p1", b!"l1"]), (none, b!"deliver_abs", [b!"p1", b!"l2", b!"l3"])])]')


def domain(*cs): return ('expr', 'domain? %0 fun d => ' + ' && '.join('(%s)' % c for c in cs))
def problem(*cs): return ('expr', 'problem? %0 fun p => ' + ' && '.join('(%s)' % c for c in cs))


def shape(what, pat, cond):
    return 'match %s with | %s => %s | %s => false' % (what, pat, cond, '_, _' if what == 'a.pre, a.eff' else '_')


TABLE = {
    (L, 'punctuation_recognition_test'): toks(['.punct .dash', '.punct .lparen', '.punct .rparen', '.eof']),
    (L, 'ordering_relation_recognition_test'): toks(['.op .le', '.op .gt', '.op .ge', '.op .lt', '.eof']),
    (L, 'logical_operator_recognition_test'): toks(['.op .and', '.op .or', '.op .xor', '.op .not', '.op .exists_',
                                                    '.op .forall_', '.op .implication', '.eof']),
    (L, 'variable_recognition_test'): toks(['.ident ' + b('test_id'), '.ident ' + b('pred-aa')]),
    (L, 'keyword_recognition_test'): toks(kinds(KW)),
    (L, 'number_recognition_test'): toks(['.num (.real %s)' % b('123.54'), '.num (.int 42)']),
    (L, 'identifier_recognition_test'): toks(['.ident ' + b(x) for x in ('var123', 'var_3123', 'te23', 'v')]),
    (L, 'lookahead_test'): ('expr', 'peeked 1000 (LexState.init %0)'),
    (H, 'variable_name_error_test'): ('expr', ' && '.join(
        'lexical 1 %%%d == [(.invalidIdentifier, %s, %d)]' % (i, b(s), l)
        for i, (s, l) in enumerate([('ca<sd', 3), ('rt/asd', 3), ('f*ta', 7), ('%x954s', 7)]))),
    (H, 'keyword_error_test'): ('expr', 'lexical 3 %%0 == [%s]' % ', '.join(
        '(.invalidKeyword, %s, %d)' % (b(s), l) for s, l in [('cra', 3), ('pred', 3), ('defne', 7)])),
    (S, 'objects_list_test'): problem('(p.objects.map fun s => (s.name, s.pos, s.ty, s.tyPos)) == [%s]' % ', '.join(
        '(%s, %d, %s, %s)' % (b(n), l, 'some ' + b(t) if t else 'none', 'some %d' % k if k else 'none')
        for n, l, t, k in [('a', 2, 'd', 4), ('b', 3, 'd', 4), ('c', 3, 'd', 4), ('s', 5, 'f', 5), ('t', 5, None, None)])),
    (S, 'untyped_objects_list_test'): problem('(p.objects.map fun s => (s.name, s.pos)) == [(%s, 3), (%s, 3), (%s, 4)]'
                                              % (b('a'), b('b'), b('c'))),
    (S, 'requirement_parsing_test'): problem(
        'p.requirements.length == 4',
        '[Req.hierarchy, .methodPreconditions, .negativePreconditions, .typedObjects].all (· ∈ p.requirements)'),
    (S, 'predicate_parsing_test'): domain(
        '(d.predicates.map fun p => (p.name, p.pos, typed p.vars)) == [(%s, 3, %s), (%s, 4, []), (%s, 5, %s)]' % (
            b('pred_1'), syms([('a_1', 't_1'), ('a_2', 't_1'), ('a_3', 't_2')]), b('pred_2'), b('pred_3'),
            syms([('a_1', None), ('a_2', None)]))),
    (S, 'method_parsing_test'): domain(
        M1, '(d.methods.map fun m => (m.name.pos, m.task.pos)) == [(2, 4)]',
        '(d.methods.map fun m => m.tn.subtasks.map fun s => (s.task.pos, s.terms.map (·.pos))) == '
        '[[(6, [6, 6]), (7, [7, 7, 7])]]',
        'd.methods.all fun m => m.pre.isNone'),
    (S, 'method_precondition_test'): domain(
        M1, 'd.methods.all fun m => ' + shape(
            'm.pre', 'some (.and [.atom ⟨a, 5, [_, _]⟩, .atom ⟨c, 6, [_]⟩, .not (.equals x y)])',
            'a == b!"at" && c == b!"driver" && x == b!"l1" && y == b!"l2"')),
    (S, 'universal_quantification_test'): domain(
        M1, 'd.methods.all fun m => ' + shape(
            'm.pre', 'some (.forall_ vs (.equals x y))',
            'typed vs == %s && x == b!"l1" && y == b!"l2"' % syms([('l1', 'loc'), ('l2', 'loc')]))),
    (S, 'init_state_parsing_test'): problem(
        '(p.initState.map fun a => (a.name, a.vars.map (·.name))) == '
        '[(b!"pred1", [b!"arg1", b!"arg2"]), (b!"pred2", [b!"arg1", b!"arg2", b!"arg3"])]'),
    (S, 'init_tn_parsing_test'): problem(shape(
        'p.initTn', 'some t',
        '(t.params.map typed) == some [(b!"d", none)] && t.tn.orderings == .partial_ [(b!"task0", b!"task1")] && '
        'subtasks t.tn == [(some (b!"task0", 5), b!"deliver", [b!"package_0", b!"city_loc_0"]), '
        '(some (b!"task1", 7), b!"retrieve", [b!"package_1", b!"city_loc_2", b!"truck3"])] && '
        '(t.tn.subtasks.map fun s => s.terms.map (·.pos)) == [[5, 6], [7, 8, 8]] && '
        't.tn.constraints == some [.notEqual b!"term1" b!"term2"]')),
    (S, 'no_op_test'): domain('d.actions.length == 1'),
    (S, 'init_total_order_tn_parsing_test'): problem(shape(
        'p.initTn', 'some t',
        't.params.isNone && t.tn.orderings == .total && '
        'subtasks t.tn == [(none, b!"deliver", [b!"package_0", b!"city_loc_0"]), '
        '(none, b!"retrieve", [b!"package_1", b!"city_loc_2", b!"truck3"])]')),
    (S, 'compound_task_parsing_test'): domain(
        C1, '(d.tasks.map fun t => (t.pos, (t.params.map (·.tyPos)).head?)) == [(3, some (some 4))]'),
    (S, 'action_parsing_test'): domain(A1, 'd.actions.all fun a => ' + shape(
        'a.pre, a.eff', 'some (.not (.atom p)), some (.and [.not (.atom q), .atom r])',
        'lit p == (b!"at", [b!"p_1"]) && lit q == (b!"hold", [b!"p_2", b!"p_3"]) && lit r == (b!"at", [b!"p_2"])')),
    (S, 'quantifier_parsing_test'): domain(A1, 'd.actions.all fun a => ' + shape(
        'a.pre, a.eff',
        'some (.and [.not (.atom p), .exists_ v e]), some (.and [.not (.atom q), .atom r, .forall_ w f])',
        'lit p == (b!"at", [b!"p_1"]) && v.map (·.name) == [b!"num1", b!"num2"] && e.propPreds.length == 1 && '
        'lit q == (b!"hold", [b!"p_2", b!"p_3"]) && lit r == (b!"at", [b!"p_2"]) && '
        'w.map (·.name) == [b!"loc"] && f.propPreds.length == 2')),
    (S, 'non_deterministic_action_parsing_test'): domain(A1, 'd.actions.all fun a => ' + shape(
        'a.eff', 'some (.xor [.not (.atom q), .atom r])',
        'lit q == (b!"hold", [b!"p_2", b!"p_3"]) && lit r == (b!"at", [b!"p_2"])')),
    (S, 'probabilistic_action_parsing_test'): domain('d.actions.map (·.name) == [b!"a_1"]', 'd.actions.all fun a => ' + shape(
        'a.eff',
        'some (.and [.weighted u (.and [.not (.atom p), .atom q]), '
        '.weighted v (.and [.weighted w (.atom r), .weighted x (.not (.atom s))])])',
        '[u, v, w, x] == [.real b!"0.8", .real b!"0.2", .real b!"0.5", .real b!"0.5"] && '
        'lit p == (b!"at", [b!"p_2", b!"p_3"]) && lit q == (b!"at", [b!"p_2"]) && '
        'lit r == (b!"hold", [b!"p_2", b!"p_3"]) && lit s == (b!"at", [b!"p_2"])')),
    (S, 'var_type_declaration_test'): domain('d.types.map typed == some ' + syms(TYPED)),
    (S, 'function_parsing_test'): domain('(d.functions.map fun f => (f.name, typed f.vars)) == [%s]' % ', '.join(
        '(%s, %s)' % (b(n), syms(v)) for n, v in [
            ('battery-amount', [('r', 'rover')]), ('recharge-rate', [('r', 'rover')]), ('battery-capacity', []),
            ('distance', [('wp1', 'waypoint'), ('wp2', 'waypoint')])])),
    (S, 'comment_test'): domain(C1),
    (S, 'constants_declaration_test'): domain('d.constants.map typed == some ' + syms(TYPED)),
    (S, 'last_character_bug_test'): ('expr', 'domain? %0 fun _ => true'),
    (S, 'last_character_bug_2_test'): ('expr', 'domain? %0 fun _ => true'),
    (S, 'empty_tn_test'): problem(shape('p.initTn', 'some t', 't.params.isNone && t.tn.subtasks.isEmpty')),
    (S, 'file_classification_test'): ('expr', 'match classify %0 with | .ok .domain => true | _ => false'),
    (D, 'objects_duplicate_test'): ('prob', '.dupObject ⟨%s, 3, 6⟩' % b('a')),
    (D, 'requirements_duplicate_test'): ('dom', '.dupRequirement .hierarchy'),
    (D, 'predicates_duplicate_test'): dup('dupPredicate', 'pred_1', 4, 6),
    (D, 'action_duplicate_test'): dup('dupAction', 'a_1', 7, 17),
    (D, 'parameter_duplicate_test'): dup('dupParameter', 'p_1', 8, 8),
    (D, 'compound_task_duplicate_test'): dup('dupTask', 'c_1', 2, 8),
    (D, 'method_duplicate_test'): dup('dupMethod', 'm_1', 7, 22),
    (U, 'undefined_predicate_action_precondition_test'): undef('undefPredicate', 'pred_5', 9),
    (U, 'inconsistent_predicate_action_effect_test'): (
        'expr', shape('semantic %0 none', 'some (.predArity e)', 'e.symbol == b!"hold" && e.expected == 2 && e.found == 3')),
    (U, 'undefined_predicate_method_precondition_test'): undef('undefPredicate', 'pred_5', 10),
    (U, 'undefined_method_parameters_test'): undef('undefParameter', 'p5', 15),
    (U, 'undefined_subtask_test'): undef('undefSubtask', 'c_3', 20),
    (U, 'inconsistent_subtask_arity_test'): (
        'expr', shape('semantic %0 none', 'some (.taskArity e)', 'e.symbol == b!"c_2" && e.expected == 1 && e.found == 2')),
    (U, 'undefined_type_compound_task_test'): undef('undefType', 't5', 9),
    (U, 'undefined_type_predicate_test'): undef('undefType', 't2', 6),
    (U, 'undefined_predicate_forall_quantification_test'): undef('undefPredicate', 'wro', 16),
    (U, 'undefined_method_task_test'): undef('undefTask', 'deliver_abs', 12),
    (T, 'basic_type_checking_test'): ty('predArgType', 't1', 't2', 'l1', 12),
    (T, 'effect_type_checking_test'): ('expr', 'accepted %0'),
    (T, 'inconsistent_predicate_arity_test'): arity('predArity', 'at', 1, 2, 14),
    (T, 'inconsistent_subtask_arity_test'): arity('taskArity', 'test1', 2, 1, 21),
    (T, 'method_prec_type_checking_test'): ('expr', 'accepted %0'),
    (T, 'method_subtask_checking_test'): ty('taskArgType', 't2', 't6', 'l3', 27),
    (C, 'cyclic_method_ordering_test'): ('dom', '.cyclicOrdering 21'),
    (C, 'cyclic_types_test'): ('dom', '.cyclicType'),
    (W, 'primitive_refinement_test'): ('expr', 'warned %0 == some [(b!"abs_3", 15)]'),
    (P, 'p_undeclared_type_test'): ('depot', '.undefType ⟨%s, 6⟩' % b('car')),
    (P, 'p_undefined_object_test'): ('depot', '.undefObject ⟨%s, 10⟩' % b('x3')),
    (P, 'p_duplicate_object_definition_test'): (
        'expr', shape('semantic depot (some %0)', 'some (.dupObject e)', 'e.symbol == b!"x1"')),
    (P, 'p_cyclic_init_tn_ordering_test'): ('depot', '.cyclicOrdering 14'),
    (P, 'p_inconsistent_goal_predicate_test'): (
        'expr', shape('semantic depot (some %0)', 'some (.predArity e)',
                      'e.symbol == b!"at" && e.expected == 2 && e.found == 1')),
    (P, 'p_inconsistent_init_predicate_test'): (
        'expr', shape('semantic depot (some %0)', 'some (.predArgType e)', 'e.var == b!"at"')),
    (P, 'p_inconsistent_subtask_test'): (
        'expr', shape('semantic depot (some %0)', 'some (.taskArgType e)', 'e.var == b!"do_get_truck"')),
    (G, 'tdg_correctness_test'): (
        'expr', 'reached %0 b!"abs_1" == some ([b!"p_1"], [b!"abs_1", b!"abs_2", b!"abs_3"], true) && '
        '(reached %0 b!"p_2").map (fun r => (r.1, r.2.2)) == some ([b!"p_2"], false)'),
    (G, 'tdg_non_recursive_test'): ('expr', shape('recursion %0', 'some .nonRecursive', 'true')),
    (G, 'tdg_recursive_test'): ('expr', shape('recursion %0', 'some (.recursive _)', 'true')),
    (G, 'tdg_grow_and_shrink_cycle_test'): ('expr', shape('recursion %0', 'some (.growAndShrink _)', 'true')),
    (G, 'tdg_grow_and_shrink_cycle_partial_order_1_test'): (
        'expr', shape('recursion %0', 'some (.growAndShrink _)', 'true')),
    (G, 'tdg_growing_cycle_test'): ('expr', shape('recursion %0', 'some (.growingEmptyPrefix _)', 'true')),
    (G, 'satelite_domain_cycle_test'): ('expr', shape('recursion %0', 'some (.recursive _)', 'true')),
    (G, 'tdg_nullables_test'): ('expr', 'sameNames (nullables %0) [b!"abs_1", b!"abs_2", b!"abs_3"]'),
}

HEAD = '''import Verif.Model.Api

/-! The unit tests of the repository as checks of the model.  Generated by `tools/conformance.py` from
`/repo/src/*/tests/*.rs`: every input is copied from the test of the given name, and every check states what that test
asserts.  `#guard` evaluates the check when this file is built.  These checks are tests of the model, not proofs; they
support the claim that the model behaves like the code.  One test is left out: `file_type_test`, which is ignored in
the repository. -/

namespace Verif.Conformance

/-- All inputs are ASCII and no number is printed. -/
local instance : Env := ⟨fun _ => false, fun _ => ""⟩

/-- The tree of a domain satisfies a condition. -/
def domain? (f : Bytes) (c : DomainAST → Bool) : Bool := match parse 100000 f with | .ok (.domain d) => c d | _ => false

/-- The tree of a problem satisfies a condition. -/
def problem? (f : Bytes) (c : ProblemAST → Bool) : Bool :=
  match parse 100000 f with | .ok (.problem p) => c p | _ => false

/-- Names and types of symbols. -/
def typed (l : List Symbol) : List (Name × Option Name) := l.map fun s => (s.name, s.ty)

/-- Name and arguments of an atom. -/
def lit (p : Predicate) : Name × List Name := (p.name, p.vars.map (·.name))

/-- Labels with lines, names and arguments of subtasks. -/
def subtasks (h : HTN) : List (Option (Name × Nat) × Name × List Name) :=
  h.subtasks.map fun s => (s.id.map fun i => (i.name, i.pos), s.task.name, s.terms.map (·.name))

/-- The first tokens of a file. -/
def tokensFrom : Nat → LexState → Option (List Token)
  | 0, _ => some []
  | n + 1, s => match getToken s with | .tok t s => (tokensFrom n s).map (t :: ·) | _ => none

/-- The first tokens of a file. -/
def tokens (n : Nat) (f : Bytes) : Option (List Token) := tokensFrom n (LexState.init f)

/-- Every token up to the end of the file is the one that looking ahead returns. -/
def peeked : Nat → LexState → Bool
  | 0, _ => false
  | n + 1, s =>
    match getToken s, lookahead s with
    | .tok .eof _, _ => true
    | .tok t s, .tok u _ => t == u && peeked n s
    | _, _ => false

/-- The errors that the first calls of the lexer return. -/
def lexicalFrom : Nat → LexState → List (LexErrKind × List UInt8 × Nat)
  | 0, _ => []
  | n + 1, s => match getToken s with | .err e s => (e.kind, e.lexeme, e.pos) :: lexicalFrom n s | _ => []

/-- The errors that the first calls of the lexer return. -/
def lexical (n : Nat) (f : Bytes) : List (LexErrKind × List UInt8 × Nat) := lexicalFrom n (LexState.init f)

/-- The semantic error of `verify`. -/
def semantic (f : Bytes) (p : Option Bytes) : Option SemErr :=
  match verify HashOrd.id 100000 f p with | .err (.semantic e) => some e | _ => none

/-- `verify` accepts the domain. -/
def accepted (f : Bytes) : Bool := match verify HashOrd.id 100000 f none with | .ok _ => true | _ => false

/-- Tasks and lines of the warnings. -/
def warned (f : Bytes) : Option (List (Name × Nat)) :=
  match verify HashOrd.id 100000 f none with | .ok l => some (l.map fun w => (w.symbol, w.pos)) | _ => none

/-- The graph of a domain. -/
def graph (f : Bytes) : Option TDG :=
  match parse 100000 f with
  | .ok (.domain d) => match TDG.new HashOrd.id d with | .ok g => some g | _ => none
  | _ => none

/-- The result of `reachable`. -/
def reached (f : Bytes) (t : Name) : Option (List Name × List Name × Bool) :=
  (graph f).bind fun g => match g.reachable 100000 t with | .ok r => some (r.primitives, r.compounds, r.nullable) | _ => none

/-- The result of `compute_nullables`. -/
def nullables (f : Bytes) : List Name :=
  match graph f with | some g => (match g.nullables 100000 with | .ok l => l | _ => []) | none => []

/-- The result of `get_recursion_type`. -/
def recursion (f : Bytes) : Option RecType :=
  (graph f).bind fun g => match g.nullables 100000 with
    | .ok l => (match g.recursionType HashOrd.id 100000 l with | .ok r => some r | _ => none)
    | _ => none

/-- The same names in any order. -/
def sameNames (l k : List Name) : Bool := l.length == k.length && k.all (· ∈ l)

'''


def main():
    out = [HEAD]
    p = open(BASE + P).read()
    i = p.index('return  "') + 9
    out.append('/-- `get_domain`, semantic_analyzer/tests/problem_test.rs. -/\ndef depot : Bytes :=\n  '
               + lit(p[i:p.index('".as_bytes')]) + '\n')
    done = set()
    for path in (L, H, S, D, U, T, C, W, P, G):
        out.append('/-! ### %s -/\n' % path)
        stem = os.path.basename(path)[:-3]
        for name, texts in tests(path):
            if name == 'file_type_test':
                continue
            kind, what = TABLE[path, name]
            done.add((path, name))
            vs = []
            for k, t in enumerate(texts):
                v = '%s_%s_%d' % (stem, name, k)
                vs.append(v)
                out.append('def %s : Bytes :=\n  %s\n' % (v, lit(t)))
            if kind == 'dom':
                e = 'semantic %s none == some (%s)' % (vs[0], what)
            elif kind == 'prob':
                e = 'semantic %s (some %s) == some (%s)' % (vs[0], vs[1], what)
            elif kind == 'depot':
                e = 'semantic depot (some %s) == some (%s)' % (vs[0], what)
            else:
                e = what
                for k, v in enumerate(vs):
                    e = re.sub(r'%%%d(?![0-9a-z])' % k, v, e)
            out.append('#guard %s\n' % e)
    assert done == set(TABLE), set(TABLE) - done
    out.append('end Verif.Conformance\n')
    open(OUT, 'w').write('\n'.join(out))


main()
