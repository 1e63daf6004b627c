import Verif.Model.Api

/-! The unit tests of the repository as checks of the model.  Generated by `tools/conformance.py` from
`/repo/src/*/tests/*.rs`: every input is copied from the test of the given name, and every check states what that test
asserts.  `#guard` evaluates the check when this file is built.  These checks are tests of the model, not proofs; they
support the claim that the model behaves like the code.  One test is left out: `file_type_test`, which is ignored in
the repository. -/

namespace Verif.Conformance

/-- All inputs are ASCII and no number is printed. -/
local instance : Env := ⟨fun _ => false, fun _ => ""⟩

/-- The tree of a domain satisfies a condition. -/
def domain? (f : Bytes) (c : DomainAST → Bool) : Bool := match parse 100000 f with | .ok (.domain d) => c d | _ => false

/-- The tree of a problem satisfies a condition. -/
def problem? (f : Bytes) (c : ProblemAST → Bool) : Bool :=
  match parse 100000 f with | .ok (.problem p) => c p | _ => false

/-- Names and types of symbols. -/
def typed (l : List Symbol) : List (Name × Option Name) := l.map fun s => (s.name, s.ty)

/-- Name and arguments of an atom. -/
def lit (p : Predicate) : Name × List Name := (p.name, p.vars.map (·.name))

/-- Labels with lines, names and arguments of subtasks. -/
def subtasks (h : HTN) : List (Option (Name × Nat) × Name × List Name) :=
  h.subtasks.map fun s => (s.id.map fun i => (i.name, i.pos), s.task.name, s.terms.map (·.name))

/-- The first tokens of a file. -/
def tokensFrom : Nat → LexState → Option (List Token)
  | 0, _ => some []
  | n + 1, s => match getToken s with | .tok t s => (tokensFrom n s).map (t :: ·) | _ => none

/-- The first tokens of a file. -/
def tokens (n : Nat) (f : Bytes) : Option (List Token) := tokensFrom n (LexState.init f)

/-- Every token up to the end of the file is the one that looking ahead returns. -/
def peeked : Nat → LexState → Bool
  | 0, _ => false
  | n + 1, s =>
    match getToken s, lookahead s with
    | .tok .eof _, _ => true
    | .tok t s, .tok u _ => t == u && peeked n s
    | _, _ => false

/-- The errors that the first calls of the lexer return. -/
def lexicalFrom : Nat → LexState → List (LexErrKind × List UInt8 × Nat)
  | 0, _ => []
  | n + 1, s => match getToken s with | .err e s => (e.kind, e.lexeme, e.pos) :: lexicalFrom n s | _ => []

/-- The errors that the first calls of the lexer return. -/
def lexical (n : Nat) (f : Bytes) : List (LexErrKind × List UInt8 × Nat) := lexicalFrom n (LexState.init f)

/-- The semantic error of `verify`. -/
def semantic (f : Bytes) (p : Option Bytes) : Option SemErr :=
  match verify HashOrd.id 100000 f p with | .err (.semantic e) => some e | _ => none

/-- `verify` accepts the domain. -/
def accepted (f : Bytes) : Bool := match verify HashOrd.id 100000 f none with | .ok _ => true | _ => false

/-- Tasks and lines of the warnings. -/
def warned (f : Bytes) : Option (List (Name × Nat)) :=
  match verify HashOrd.id 100000 f none with | .ok l => some (l.map fun w => (w.symbol, w.pos)) | _ => none

/-- The graph of a domain. -/
def graph (f : Bytes) : Option TDG :=
  match parse 100000 f with
  | .ok (.domain d) => match TDG.new HashOrd.id d with | .ok g => some g | _ => none
  | _ => none

/-- The result of `reachable`. -/
def reached (f : Bytes) (t : Name) : Option (List Name × List Name × Bool) :=
  (graph f).bind fun g => match g.reachable 100000 t with | .ok r => some (r.primitives, r.compounds, r.nullable) | _ => none

/-- The result of `compute_nullables`. -/
def nullables (f : Bytes) : List Name :=
  match graph f with | some g => (match g.nullables 100000 with | .ok l => l | _ => []) | none => []

/-- The result of `get_recursion_type`. -/
def recursion (f : Bytes) : Option RecType :=
  (graph f).bind fun g => match g.nullables 100000 with
    | .ok l => (match g.recursionType HashOrd.id 100000 l with | .ok r => some r | _ => none)
    | _ => none

/-- The same names in any order. -/
def sameNames (l k : List Name) : Bool := l.length == k.length && k.all (· ∈ l)


/-- `get_domain`, semantic_analyzer/tests/problem_test.rs. -/
def depot : Bytes :=
  b!"
    (define (domain Depot)
            (:requirements :negative-preconditions
                :hierarchy
                :typing
                :method-preconditions
            )

            (:types place locatable - object depot distributor - place truck hoist surface - locatable pallet crate - surface)

            (:predicates (at ?x - locatable ?y - place) (on ?x - crate ?y - surface) (in ?x - crate ?y - truck) (lifting ?x - hoist ?y - crate) (available ?x - hoist) (clear ?x - surface))

            (:task do_put_on
            :parameters (?c - crate ?s2 - surface) )

            (:task do_clear
            :parameters (?s1 - surface ?p1 - place) )

            (:task do_get_truck
            :parameters (?t - truck ?p1 - place) )

            (:task do_lift_crate
            :parameters (?c - crate ?p - place ?h - hoist) )

            (:task do_load_truck
            :parameters (?c - crate ?s - surface ?p - place ?t - truck) )

            (:task do_unload_truck
            :parameters (?c - crate ?s - surface ?p - place ?t - truck) )

            (:method m0_do_put_on
            :parameters ( ?c - crate  ?s2 - surface )
            :task (do_put_on ?c ?s2)
            :precondition(and (on ?c ?s2))
            :ordered-subtasks(and (t1 (nop))) ) 

            (:method m1_do_put_on
            :parameters ( ?c - crate  ?s2 - surface ?p - place ?h - hoist )
            :task (do_put_on ?c ?s2)
            :precondition(and (at ?c ?p))
            :ordered-subtasks(and (t1 (do_clear ?c ?p)) (t2 (do_clear ?s2 ?p)) (t3 (do_lift_crate ?c ?p ?h)) (t4 (Drop ?h ?c ?s2 ?p))) ) 

            (:method m2_do_put_on
            :parameters ( ?c - crate  ?s2 - surface ?p - place ?t - truck ?h - hoist )
            :task (do_put_on ?c ?s2)
            :precondition(and (in ?c ?t))
            :ordered-subtasks(and (t1 (do_get_truck ?t ?p)) (t2 (do_clear ?s2 ?p)) (t3 (Unload ?h ?c ?t ?p)) (t4 (Drop ?h ?c ?s2 ?p))) ) 

            (:method m3_do_put_on
            :parameters ( ?c - crate  ?s2 - surface ?s1 - surface ?p1 - place ?t - truck ?p2 - place )
            :task (do_put_on ?c ?s2)
            :precondition()
            :ordered-subtasks(and (t1 (do_load_truck ?c ?s1 ?p1 ?t)) (t2 (Drive ?t ?p1 ?p2)) (t3 (do_unload_truck ?c ?s2 ?p2 ?t))) ) 

            (:method m4_do_clear
            :parameters ( ?s1 - surface  ?p1 - place )
            :task (do_clear ?s1 ?p1)
            :precondition(and (clear ?s1) (at ?s1 ?p1))
            :ordered-subtasks(and (t1 (nop))) ) 

            (:method m5_do_clear
            :parameters ( ?s1 - surface  ?p1 - place ?c - crate ?t - truck ?h1 - hoist )
            :task (do_clear ?s1 ?p1)
            :precondition(and (not (clear ?s1)) (on ?c ?s1) (at ?s1 ?p1) (at ?h1 ?p1))
            :ordered-subtasks(and (t1 (do_clear ?c ?p1)) (t2 (Lift ?h1 ?c ?s1 ?p1)) (t3 (do_get_truck ?t ?p1)) (t4 (Load ?h1 ?c ?t ?p1))) ) 

            (:method m6_do_get_truck
            :parameters ( ?t - truck  ?p1 - place )
            :task (do_get_truck ?t ?p1)
            :precondition(and (at ?t ?p1))
            :ordered-subtasks(and (t1 (nop))) ) 

            (:method m7_do_get_truck
            :parameters ( ?t - truck  ?p1 - place ?p2 - place )
            :task (do_get_truck ?t ?p1)
            :precondition(and (not (at ?t ?p1)))
            :ordered-subtasks(and (t1 (Drive ?t ?p2 ?p1))) ) 

            (:method m8_do_lift_crate
            :parameters ( ?c - crate  ?p - place  ?h - hoist ?t - truck )
            :task (do_lift_crate ?c ?p ?h)
            :precondition(and (in ?c ?t) (at ?h ?p))
            :ordered-subtasks(and (t1 (do_get_truck ?t ?p)) (t2 (Unload ?h ?c ?t ?p))) ) 

            (:method m9_do_lift_crate
            :parameters ( ?c - crate  ?p - place  ?h - hoist ?s - surface )
            :task (do_lift_crate ?c ?p ?h)
            :precondition(and (on ?c ?s) (at ?c ?p) (at ?s ?p) (at ?h ?p))
            :ordered-subtasks(and (t1 (Lift ?h ?c ?s ?p))) ) 

            (:method m10_do_load_trcaruck
            :parameters ( ?c - crate  ?s - surface  ?p - place  ?t - truck ?h - hoist )
            :task (do_load_truck ?c ?s ?p ?t)
            :precondition(and (at ?c ?p) (at ?s ?p) (on ?c ?s) (at ?h ?p))
            :ordered-subtasks(and (t1 (do_get_truck ?t ?p)) (t2 (do_clear ?c ?p)) (t3 (Lift ?h ?c ?s ?p)) (t4 (Load ?h ?c ?t ?p))) ) 

            (:method m11_do_unload_truck
            :parameters ( ?c - crate  ?s - surface  ?p - place  ?t - truck ?h - hoist )
            :task (do_unload_truck ?c ?s ?p ?t)
            :precondition(and (in ?c ?t) (at ?t ?p) (at ?h ?p) (at ?s ?p))
            :ordered-subtasks(and (t1 (do_clear ?s ?p)) (t2 (Unload ?h ?c ?t ?p)) (t3 (Drop ?h ?c ?s ?p))) ) 

            (:action Drive
            :parameters (?x - truck ?y - place ?z - place)
            :precondition (and (at ?x ?y))
            :effect (and (not (at ?x ?y)) (at ?x ?z)))

            (:action Lift
            :parameters (?x - hoist ?y - crate ?z - surface ?p - place)
            :precondition (and (at ?x ?p) (available ?x) (at ?y ?p) (on ?y ?z) (clear ?y))
            :effect (and (not (at ?y ?p)) (lifting ?x ?y) (not (clear ?y)) (not (available ?x)) (clear ?z) (not (on ?y ?z))))

            (:action Drop
            :parameters (?x - hoist ?y - crate ?z - surface ?p - place)
            :precondition (and (at ?x ?p) (at ?z ?p) (clear ?z) (lifting ?x ?y))
            :effect (and (available ?x) (not (lifting ?x ?y)) (at ?y ?p) (not (clear ?z)) (clear ?y) (on ?y ?z)))

            (:action Load
            :parameters (?x - hoist ?y - crate ?z - truck ?p - place)
            :precondition (and (at ?x ?p) (at ?z ?p) (lifting ?x ?y))
            :effect (and (not (lifting ?x ?y)) (in ?y ?z) (available ?x)))

            (:action Unload
            :parameters (?x - hoist ?y - crate ?z - truck ?p - place)
            :precondition (and (at ?x ?p) (at ?z ?p) (available ?x) (in ?y ?z))
            :effect (and (not (in ?y ?z)) (not (available ?x)) (lifting ?x ?y)))

            (:action nop
            :parameters ()
            :precondition ()
            :effect ())
))"

/-! ### lexical_analyzer/tests/lexer_tests.rs -/

def lexer_tests_punctuation_recognition_test_0 : Bytes :=
  b!"-( 
) "

#guard tokens 4 lexer_tests_punctuation_recognition_test_0 == some [.punct .dash, .punct .lparen, .punct .rparen, .eof]

def lexer_tests_ordering_relation_recognition_test_0 : Bytes :=
  b!"<=  
> >= < 
"

#guard tokens 5 lexer_tests_ordering_relation_recognition_test_0 == some [.op .le, .op .gt, .op .ge, .op .lt, .eof]

def lexer_tests_logical_operator_recognition_test_0 : Bytes :=
  b!"and or oneof not exists forall imply
"

#guard tokens 8 lexer_tests_logical_operator_recognition_test_0 == some [.op .and, .op .or, .op .xor, .op .not, .op .exists_, .op .forall_, .op .implication, .eof]

def lexer_tests_variable_recognition_test_0 : Bytes :=
  b!"?test_id ?pred-aa "

#guard tokens 2 lexer_tests_variable_recognition_test_0 == some [.ident b!"test_id", .ident b!"pred-aa"]

def lexer_tests_keyword_recognition_test_0 : Bytes :=
  b!"define domain problem :requirements :objects :types :constants

            :predicates :init :htn :action :parameters :method :precondition

            :effect :subtasks :tasks :ordered-tasks :ordered-subtasks :order

            :ordering :constraints
"

#guard tokens 22 lexer_tests_keyword_recognition_test_0 == some [.kw .define, .kw .domain, .kw .problem, .kw .requirements, .kw .objects, .kw .types, .kw .constants, .kw .predicates, .kw .init, .kw .htn, .kw .action, .kw .parameters, .kw .method, .kw .precondition, .kw .effect, .kw .subtasks, .kw .subtasks, .kw .orderedSubtasks, .kw .orderedSubtasks, .kw .ordering, .kw .ordering, .kw .constraints]

def lexer_tests_number_recognition_test_0 : Bytes :=
  b!"123.54 42
"

#guard tokens 2 lexer_tests_number_recognition_test_0 == some [.num (.real b!"123.54"), .num (.int 42)]

def lexer_tests_identifier_recognition_test_0 : Bytes :=
  b!"var123 var_3123 te23 v
"

#guard tokens 4 lexer_tests_identifier_recognition_test_0 == some [.ident b!"var123", .ident b!"var_3123", .ident b!"te23", .ident b!"v"]

def lexer_tests_lookahead_test_0 : Bytes :=
  b!"(:method vDC_to_vPC_2
                :parameters (?d1 ?d2 - AbstractDevice ?t - SignalType ?p1 ?p2 - Port)
                :task (ValidateDeviceConnection ?d1 ?d2 ?t)
                :precondition (and
                        (isPartOf ?p1 ?d1)
                        (isPartOf ?p2 ?d2)
                        (isPlugDirection ?p1 out)
                        (isPlugDirection ?p2 both)
                        (isSignalSource ?p1 ?t)
                        (isSignalDestination ?p2 ?t)
                )
                :subtasks (and
                    (ValidatePortConnection ?p1 ?p2 ?t)
                )
            ) "

#guard peeked 1000 (LexState.init lexer_tests_lookahead_test_0)

/-! ### lexical_analyzer/tests/error_handling_tests.rs -/

def error_handling_tests_variable_name_error_test_0 : Bytes :=
  b!"

?ca<sd "

def error_handling_tests_variable_name_error_test_1 : Bytes :=
  b!"

?rt/asd 



 ?f*ta 	 %x954s ? "

def error_handling_tests_variable_name_error_test_2 : Bytes :=
  b!"





 ?f*ta 	 %x954s ? "

def error_handling_tests_variable_name_error_test_3 : Bytes :=
  b!"





 	 %x954s ? "

#guard lexical 1 error_handling_tests_variable_name_error_test_0 == [(.invalidIdentifier, b!"ca<sd", 3)] && lexical 1 error_handling_tests_variable_name_error_test_1 == [(.invalidIdentifier, b!"rt/asd", 3)] && lexical 1 error_handling_tests_variable_name_error_test_2 == [(.invalidIdentifier, b!"f*ta", 7)] && lexical 1 error_handling_tests_variable_name_error_test_3 == [(.invalidIdentifier, b!"%x954s", 7)]

def error_handling_tests_keyword_error_test_0 : Bytes :=
  b!"

:cra :pred 



 :defne "

#guard lexical 3 error_handling_tests_keyword_error_test_0 == [(.invalidKeyword, b!"cra", 3), (.invalidKeyword, b!"pred", 3), (.invalidKeyword, b!"defne", 7)]

/-! ### syntactic_analyzer/tests/syntax_tests.rs -/

def syntax_tests_objects_list_test_0 : Bytes :=
  b!"(define (problem p1) (domain bal)
                            (:objects a
                            b c 
                            - d
                            s - f t)
                          )"

#guard problem? syntax_tests_objects_list_test_0 fun p => ((p.objects.map fun s => (s.name, s.pos, s.ty, s.tyPos)) == [(b!"a", 2, some b!"d", some 4), (b!"b", 3, some b!"d", some 4), (b!"c", 3, some b!"d", some 4), (b!"s", 5, some b!"f", some 5), (b!"t", 5, none, none)])

def syntax_tests_untyped_objects_list_test_0 : Bytes :=
  b!"(define
            (problem p1) (domain bal)
            (:objects a b
            c) )"

#guard problem? syntax_tests_untyped_objects_list_test_0 fun p => ((p.objects.map fun s => (s.name, s.pos)) == [(b!"a", 3), (b!"b", 3), (b!"c", 4)])

def syntax_tests_requirement_parsing_test_0 : Bytes :=
  b!"(define (problem p1) (domain bal)
                (:requirements :hierarchy :method-preconditions :typing :negative-preconditions)

             ) "

#guard problem? syntax_tests_requirement_parsing_test_0 fun p => (p.requirements.length == 4) && ([Req.hierarchy, .methodPreconditions, .negativePreconditions, .typedObjects].all (· ∈ p.requirements))

def syntax_tests_predicate_parsing_test_0 : Bytes :=
  b!"(define (domain bal)
                (:predicates 
                    (pred_1 ?a_1 ?a_2 - t_1 ?a_3 - t_2)
                    (pred_2)
                    (pred_3 a_1 a_2)
                )
             ) "

#guard domain? syntax_tests_predicate_parsing_test_0 fun d => ((d.predicates.map fun p => (p.name, p.pos, typed p.vars)) == [(b!"pred_1", 3, [(b!"a_1", some b!"t_1"), (b!"a_2", some b!"t_1"), (b!"a_3", some b!"t_2")]), (b!"pred_2", 4, []), (b!"pred_3", 5, [(b!"a_1", none), (b!"a_2", none)])])

def syntax_tests_method_parsing_test_0 : Bytes :=
  b!"(define (domain bal)
                (:method m_1
                    :parameters (?p1 - p ?l1 ?l2 ?l3 - loc) 
                    :task (deliver_abs ?p1 ?l1 ?l2)
                    :subtasks (and
                        (pickup ?p1 ?l1)
                        (deliver_abs ?p1 ?l2 ?l3)
                    )
                )
             ) "

#guard domain? syntax_tests_method_parsing_test_0 fun d => ((d.methods.map fun m => (m.name.name, m.task.name, m.taskTerms.map (·.name), subtasks m.tn)) == [(b!"m_1", b!"deliver_abs", [b!"p1", b!"l1", b!"l2"], [(none, b!"pickup", [b!"p1", b!"l1"]), (none, b!"deliver_abs", [b!"p1", b!"l2", b!"l3"])])]) && ((d.methods.map fun m => (m.name.pos, m.task.pos)) == [(2, 4)]) && ((d.methods.map fun m => m.tn.subtasks.map fun s => (s.task.pos, s.terms.map (·.pos))) == [[(6, [6, 6]), (7, [7, 7, 7])]]) && (d.methods.all fun m => m.pre.isNone)

def syntax_tests_method_precondition_test_0 : Bytes :=
  b!"(define (domain bal)
                (:method m_1
                    :parameters (?p1 - p ?l1 ?l2 ?l3 - loc) 
                    :task (deliver_abs ?p1 ?l1 ?l2)
                    :precondition (and (at ?p1 ?l3)
                    (driver ?l1) (not (= ?l1 ?l2)))
                    :subtasks (and
                        (pickup ?p1 ?l1)
                        (deliver_abs ?p1 ?l2 ?l3)
                    )
                )
             ) "

#guard domain? syntax_tests_method_precondition_test_0 fun d => ((d.methods.map fun m => (m.name.name, m.task.name, m.taskTerms.map (·.name), subtasks m.tn)) == [(b!"m_1", b!"deliver_abs", [b!"p1", b!"l1", b!"l2"], [(none, b!"pickup", [b!"p1", b!"l1"]), (none, b!"deliver_abs", [b!"p1", b!"l2", b!"l3"])])]) && (d.methods.all fun m => match m.pre with | some (.and [.atom ⟨a, 5, [_, _]⟩, .atom ⟨c, 6, [_]⟩, .not (.equals x y)]) => a == b!"at" && c == b!"driver" && x == b!"l1" && y == b!"l2" | _ => false)

def syntax_tests_universal_quantification_test_0 : Bytes :=
  b!"(define (domain bal)
                (:method m_1
                    :parameters (?p1 - p ?l1 ?l2 ?l3 - loc) 
                    :task (deliver_abs ?p1 ?l1 ?l2)
                    :precondition (forall (?l1 ?l2 - loc) (= ?l1 ?l2))
                    :subtasks (and
                        (pickup ?p1 ?l1)
                        (deliver_abs ?p1 ?l2 ?l3)
                    )
                )
             ) "

#guard domain? syntax_tests_universal_quantification_test_0 fun d => ((d.methods.map fun m => (m.name.name, m.task.name, m.taskTerms.map (·.name), subtasks m.tn)) == [(b!"m_1", b!"deliver_abs", [b!"p1", b!"l1", b!"l2"], [(none, b!"pickup", [b!"p1", b!"l1"]), (none, b!"deliver_abs", [b!"p1", b!"l2", b!"l3"])])]) && (d.methods.all fun m => match m.pre with | some (.forall_ vs (.equals x y)) => typed vs == [(b!"l1", some b!"loc"), (b!"l2", some b!"loc")] && x == b!"l1" && y == b!"l2" | _ => false)

def syntax_tests_init_state_parsing_test_0 : Bytes :=
  b!"(define (problem p1) (domain bal)
             (:init
                (pred1 arg1 arg2)
                (pred2 arg1 arg2 arg3)
            ) "

#guard problem? syntax_tests_init_state_parsing_test_0 fun p => ((p.initState.map fun a => (a.name, a.vars.map (·.name))) == [(b!"pred1", [b!"arg1", b!"arg2"]), (b!"pred2", [b!"arg1", b!"arg2", b!"arg3"])])

def syntax_tests_init_tn_parsing_test_0 : Bytes :=
  b!"(define (problem p1) (domain bal)
             (:htn
                :parameters (?d)
                :subtasks (and
                    (task0 (deliver package_0 
                            city_loc_0))
                    (task1 (retrieve package_1
                            city_loc_2 truck3))
                )
                :ordering (and
                    (< task0 task1)
                )
                :constraints (not (= term1 term2))
            ) "

#guard problem? syntax_tests_init_tn_parsing_test_0 fun p => (match p.initTn with | some t => (t.params.map typed) == some [(b!"d", none)] && t.tn.orderings == .partial_ [(b!"task0", b!"task1")] && subtasks t.tn == [(some (b!"task0", 5), b!"deliver", [b!"package_0", b!"city_loc_0"]), (some (b!"task1", 7), b!"retrieve", [b!"package_1", b!"city_loc_2", b!"truck3"])] && (t.tn.subtasks.map fun s => s.terms.map (·.pos)) == [[5, 6], [7, 8, 8]] && t.tn.constraints == some [.notEqual b!"term1" b!"term2"] | _ => false)

def syntax_tests_no_op_test_0 : Bytes :=
  b!"(define (domain bal)
                (:action a1
                    :parameters (?p1 - p ?l1 ?l2 ?l3 - loc)
                )
             ) "

#guard domain? syntax_tests_no_op_test_0 fun d => (d.actions.length == 1)

def syntax_tests_init_total_order_tn_parsing_test_0 : Bytes :=
  b!"(define (problem p1) (domain bal)
             (:htn
                :ordered-tasks (and
                    (deliver package_0 city_loc_0)
                    (retrieve package_1 city_loc_2 truck3)
                )
            ) "

#guard problem? syntax_tests_init_total_order_tn_parsing_test_0 fun p => (match p.initTn with | some t => t.params.isNone && t.tn.orderings == .total && subtasks t.tn == [(none, b!"deliver", [b!"package_0", b!"city_loc_0"]), (none, b!"retrieve", [b!"package_1", b!"city_loc_2", b!"truck3"])] | _ => false)

def syntax_tests_compound_task_parsing_test_0 : Bytes :=
  b!"(define (domain bal)
                (:predicates )
                (:task c_1
                 :parameters (p_1 p_2 - t1 p_3 - t2)
                )
             ) "

#guard domain? syntax_tests_compound_task_parsing_test_0 fun d => ((d.tasks.map fun t => (t.name, typed t.params)) == [(b!"c_1", [(b!"p_1", some b!"t1"), (b!"p_2", some b!"t1"), (b!"p_3", some b!"t2")])]) && ((d.tasks.map fun t => (t.pos, (t.params.map (·.tyPos)).head?)) == [(3, some (some 4))])

def syntax_tests_action_parsing_test_0 : Bytes :=
  b!"(define (domain bal)
                (:action a_1
                 :parameters (p_1 p_2 - t1 p_3 - t2)
                 :precondition (not (at p_1))
                 :effect (and (not (hold p_2 p_3))
                 (at p_2))
                )
             ) "

#guard domain? syntax_tests_action_parsing_test_0 fun d => ((d.actions.map fun a => (a.name, typed a.params)) == [(b!"a_1", [(b!"p_1", some b!"t1"), (b!"p_2", some b!"t1"), (b!"p_3", some b!"t2")])]) && (d.actions.all fun a => match a.pre, a.eff with | some (.not (.atom p)), some (.and [.not (.atom q), .atom r]) => lit p == (b!"at", [b!"p_1"]) && lit q == (b!"hold", [b!"p_2", b!"p_3"]) && lit r == (b!"at", [b!"p_2"]) | _, _ => false)

def syntax_tests_quantifier_parsing_test_0 : Bytes :=
  b!"(define (domain bal)
                (:action a_1
                 :parameters (p_1 p_2 - t1 p_3 - t2)
                 :precondition (and
                    (not (at p_1))
                    (exists (?num1 ?num2 - number) (smaller ?num1 ?num2))
                 )
                 :effect (and
                    (not (hold p_2 p_3))
                    (at p_2)
                    (forall (?loc - s) (and (pred1 ?loc) (pred2 ?loc)))
                 )
                )
             ) "

#guard domain? syntax_tests_quantifier_parsing_test_0 fun d => ((d.actions.map fun a => (a.name, typed a.params)) == [(b!"a_1", [(b!"p_1", some b!"t1"), (b!"p_2", some b!"t1"), (b!"p_3", some b!"t2")])]) && (d.actions.all fun a => match a.pre, a.eff with | some (.and [.not (.atom p), .exists_ v e]), some (.and [.not (.atom q), .atom r, .forall_ w f]) => lit p == (b!"at", [b!"p_1"]) && v.map (·.name) == [b!"num1", b!"num2"] && e.propPreds.length == 1 && lit q == (b!"hold", [b!"p_2", b!"p_3"]) && lit r == (b!"at", [b!"p_2"]) && w.map (·.name) == [b!"loc"] && f.propPreds.length == 2 | _, _ => false)

def syntax_tests_non_deterministic_action_parsing_test_0 : Bytes :=
  b!"(define (domain bal)
                (:action a_1
                 :parameters (p_1 p_2 - t1 p_3 - t2)
                 :precondition (at p1)
                 :effect (oneof (not (hold p_2 p_3)) (at p_2))
                )
             ) "

#guard domain? syntax_tests_non_deterministic_action_parsing_test_0 fun d => ((d.actions.map fun a => (a.name, typed a.params)) == [(b!"a_1", [(b!"p_1", some b!"t1"), (b!"p_2", some b!"t1"), (b!"p_3", some b!"t2")])]) && (d.actions.all fun a => match a.eff with | some (.xor [.not (.atom q), .atom r]) => lit q == (b!"hold", [b!"p_2", b!"p_3"]) && lit r == (b!"at", [b!"p_2"]) | _ => false)

def syntax_tests_probabilistic_action_parsing_test_0 : Bytes :=
  b!"(define (domain bal)
                (:action a_1
                :parameters (p_1 p_2 - t1 p_3 - t2)
                :precondition (at p1)
                :effect (probabilistic
                    0.8 (and (not (at p_2 p_3)) (at p_2))
                    0.2 (probabilistic
                            0.5 (hold p_2 p_3)
                            0.5 (not (at p_2))
                        )
                    )
                )
            )"

#guard domain? syntax_tests_probabilistic_action_parsing_test_0 fun d => (d.actions.map (·.name) == [b!"a_1"]) && (d.actions.all fun a => match a.eff with | some (.and [.weighted u (.and [.not (.atom p), .atom q]), .weighted v (.and [.weighted w (.atom r), .weighted x (.not (.atom s))])]) => [u, v, w, x] == [.real b!"0.8", .real b!"0.2", .real b!"0.5", .real b!"0.5"] && lit p == (b!"at", [b!"p_2", b!"p_3"]) && lit q == (b!"at", [b!"p_2"]) && lit r == (b!"hold", [b!"p_2", b!"p_3"]) && lit s == (b!"at", [b!"p_2"]) | _ => false)

def syntax_tests_var_type_declaration_test_0 : Bytes :=
  b!"(define (domain blahblah)
                (:types
                    Port AbstractDevice - Object
                    AbstractCable Device - AbstractDevice
                    PlugType PlugFace PlugDirection SignalType - Enum
                )
             ) "

#guard domain? syntax_tests_var_type_declaration_test_0 fun d => (d.types.map typed == some [(b!"Port", some b!"Object"), (b!"AbstractDevice", some b!"Object"), (b!"AbstractCable", some b!"AbstractDevice"), (b!"Device", some b!"AbstractDevice"), (b!"PlugType", some b!"Enum"), (b!"PlugFace", some b!"Enum"), (b!"PlugDirection", some b!"Enum"), (b!"SignalType", some b!"Enum")])

def syntax_tests_function_parsing_test_0 : Bytes :=
  b!"(define (domain rover-domain)
            (:functions
                (battery-amount ?r - rover)
                (recharge-rate ?r - rover)
                (battery-capacity)
                (distance ?wp1 - waypoint ?wp2 - waypoint)
            )
        )"

#guard domain? syntax_tests_function_parsing_test_0 fun d => ((d.functions.map fun f => (f.name, typed f.vars)) == [(b!"battery-amount", [(b!"r", some b!"rover")]), (b!"recharge-rate", [(b!"r", some b!"rover")]), (b!"battery-capacity", []), (b!"distance", [(b!"wp1", some b!"waypoint"), (b!"wp2", some b!"waypoint")])])

def syntax_tests_comment_test_0 : Bytes :=
  b!";author: me
            ; domain bal
            (define (domain bal)
                ;task c_1
                (:task c_1
                 :parameters (p_1 p_2 - t1 p_3 - t2) ;task parameters are defined here
                )
             ) "

#guard domain? syntax_tests_comment_test_0 fun d => ((d.tasks.map fun t => (t.name, typed t.params)) == [(b!"c_1", [(b!"p_1", some b!"t1"), (b!"p_2", some b!"t1"), (b!"p_3", some b!"t2")])])

def syntax_tests_constants_declaration_test_0 : Bytes :=
  b!"(define (domain blahblah)
                (:constants
                    Port AbstractDevice - Object
                    AbstractCable Device - AbstractDevice
                    PlugType PlugFace PlugDirection SignalType - Enum
                )
             ) "

#guard domain? syntax_tests_constants_declaration_test_0 fun d => (d.constants.map typed == some [(b!"Port", some b!"Object"), (b!"AbstractDevice", some b!"Object"), (b!"AbstractCable", some b!"AbstractDevice"), (b!"Device", some b!"AbstractDevice"), (b!"PlugType", some b!"Enum"), (b!"PlugFace", some b!"Enum"), (b!"PlugDirection", some b!"Enum"), (b!"SignalType", some b!"Enum")])

def syntax_tests_last_character_bug_test_0 : Bytes :=
  b!"(define (domain bal)
                (:action a_1
                 :parameters (p_1 p_2 - t1 p_3 - t2)
                 :precondition (not (at p_1))
                 :effect (and (not (hold p_2 p_3))
                 (at p_2))
                )
             )"

#guard domain? syntax_tests_last_character_bug_test_0 fun _ => true

def syntax_tests_last_character_bug_2_test_0 : Bytes :=
  b!"(define (domain bal)
                (:action a_1
                 :parameters (p_1 p_2 - t1 p_3 - t2)
                 :precondition (not (at p_1))
                 :effect (and (not (hold p_2 p_3))
                 (at p_2))
                )
             )             "

#guard domain? syntax_tests_last_character_bug_2_test_0 fun _ => true

def syntax_tests_empty_tn_test_0 : Bytes :=
  b!"(define (problem p1) (domain bal)
             (:htn ) "

#guard problem? syntax_tests_empty_tn_test_0 fun p => (match p.initTn with | some t => t.params.isNone && t.tn.subtasks.isEmpty | _ => false)

def syntax_tests_file_classification_test_0 : Bytes :=
  b!"(define (domain blahblah)
                (:constants
                    Port AbstractDevice - Object
                    AbstractCable Device - AbstractDevice
                    PlugType PlugFace PlugDirection SignalType - Enum
                )
             ) "

#guard match classify syntax_tests_file_classification_test_0 with | .ok .domain => true | _ => false

/-! ### semantic_analyzer/tests/duplicate_tests.rs -/

def duplicate_tests_objects_duplicate_test_0 : Bytes :=
  b!"(define (domain bal)
            (:types t1 t2)
            (:predicates 
                (at ?a )
                (hold ?a ?b)
            )
            (:action a_1
             :parameters (p_1 p_2  p_3)
             :precondition (not (at p_1))
             :effect (and (not (hold p_2 p_3)) (at p_2))
            )
            (:action a_2
             :parameters (p_1 p_2)
             :precondition (not (at p_1))
             :effect (and (not (at p_2)))
            )
            )
         ) "

def duplicate_tests_objects_duplicate_test_1 : Bytes :=
  b!"(define (problem p1) (domain bal)
                    (:objects
                        a b c - t1
                        d - t1
                        t
                        a -t2
                        )
                    )"

#guard semantic duplicate_tests_objects_duplicate_test_0 (some duplicate_tests_objects_duplicate_test_1) == some (.dupObject ⟨b!"a", 3, 6⟩)

def duplicate_tests_requirements_duplicate_test_0 : Bytes :=
  b!"(define (domain bal)
            (:requirements :hierarchy :method-preconditions :hierarchy :negative-preconditions)

         ) "

#guard semantic duplicate_tests_requirements_duplicate_test_0 none == some (.dupRequirement .hierarchy)

def duplicate_tests_predicates_duplicate_test_0 : Bytes :=
  b!"(define (domain bal)
            (:types t_1 t_2)
            (:predicates 
                (pred_1 ?a_1 ?a_2 - t_1 ?a_3 - t_2)
                (pred_2)
                (pred_1 a_1 a_2)
            )
         ) "

#guard semantic duplicate_tests_predicates_duplicate_test_0 none == some (.dupPredicate ⟨b!"pred_1", 4, 6⟩)

def duplicate_tests_action_duplicate_test_0 : Bytes :=
  b!"(define (domain bal)
            (:types t1 t2)
            (:predicates 
                (at ?a )
                (hold ?a ?b)
            )
            (:action a_1
             :parameters (p_1 p_2  p_3)
             :precondition (not (at p_1))
             :effect (and (not (hold p_2 p_3)) (at p_2))
            )
            (:action a_2
             :parameters (p_1 p_2)
             :precondition (not (at p_1))
             :effect (and (not (at p_2)))
            )
            (:action a_1
             :parameters (p_1 p_2 p_3 p4 p5)
             :precondition (not (at p_1))
             :effect (and (not (hold p_2 p_3)) (at p_2))
            )
         ) "

#guard semantic duplicate_tests_action_duplicate_test_0 none == some (.dupAction ⟨b!"a_1", 7, 17⟩)

def duplicate_tests_parameter_duplicate_test_0 : Bytes :=
  b!"(define (domain bal)
            (:types t1 t2)
            (:predicates 
                (at ?a )
                (hold ?a ?b)
            )
            (:action a_1
             :parameters (?p_1 ?p_2 ?p_3 ?p_1)
             :precondition (not (at p_1))
             :effect (and (not (hold p_2 p_3)) (at p_2))
            )
         ) "

#guard semantic duplicate_tests_parameter_duplicate_test_0 none == some (.dupParameter ⟨b!"p_1", 8, 8⟩)

def duplicate_tests_compound_task_duplicate_test_0 : Bytes :=
  b!"(define (domain bal)
                (:task c_1
                 :parameters (p_1 p_2 p_3)
                )
                (:task c_2
                 :parameters (p_1)
                )
                (:task c_1
                 :parameters (p_1 p_2)
                )
             ) "

#guard semantic duplicate_tests_compound_task_duplicate_test_0 none == some (.dupTask ⟨b!"c_1", 2, 8⟩)

def duplicate_tests_method_duplicate_test_0 : Bytes :=
  b!"(define (domain bal)
                (:task deliver_abs :parameters (?a ?b ?c))
                (:action pickup
                    :parameters(?p1 ?l1)
                    :precondition ()
                )
                (:method m_1
                    :parameters (?p1 ?l1 ?l2 ?l3) 
                    :task (deliver_abs ?p1 ?l1 ?l2)
                    :subtasks (and
                        (pickup ?p1 ?l1)
                        (deliver_abs ?p1 ?l2 ?l3)
                    )
                )
                (:method m_2
                    :parameters (?p1 ?l1 ?l2) 
                    :task (deliver_abs ?p1 ?l1 ?l2)
                    :subtasks (and
                        (pickup ?p1 ?l1)
                    )
                )
                (:method m_1
                    :parameters (?p1 ?l1 ?l2 ?l3) 
                    :task (deliver_abs ?p1 ?l1 ?l2)
                    :subtasks (and
                        (deliver_abs ?p1 ?l2 ?l3)
                    )
                )
             ) "

#guard semantic duplicate_tests_method_duplicate_test_0 none == some (.dupMethod ⟨b!"m_1", 7, 22⟩)

/-! ### semantic_analyzer/tests/undefined_tests.rs -/

def undefined_tests_undefined_predicate_action_precondition_test_0 : Bytes :=
  b!"(define (domain bal)
            (:predicates 
                (hold ?a_1 ?a_2)
                (pred_2)
                (at a_1)
            )
            (:action a_1
             :parameters (p_1 p_2 p_3)
             :precondition (and (not (at p_1)) (pred_5))
             :effect (and (not (hold p_2 p_3)) (at p_2))
            )
         ) "

#guard semantic undefined_tests_undefined_predicate_action_precondition_test_0 none == some (.undefPredicate ⟨b!"pred_5", 9⟩)

def undefined_tests_inconsistent_predicate_action_effect_test_0 : Bytes :=
  b!"(define (domain bal)
            (:predicates 
                (hold ?a_1 ?a_2)
                (pred_2)
                (at ?a_1)
            )
            (:action a_1
             :parameters (?p_1 ?p_2 ?p_3)
             :precondition (and (not (at ?p_1)) (hold ?p_1 ?p_2))
             :effect (and (not (hold ?p_2 ?p_3 p_2)) (at ?p_2))
            )
         ) "

#guard match semantic undefined_tests_inconsistent_predicate_action_effect_test_0 none with | some (.predArity e) => e.symbol == b!"hold" && e.expected == 2 && e.found == 3 | _ => false

def undefined_tests_undefined_predicate_method_precondition_test_0 : Bytes :=
  b!"(define (domain bal)
                (:predicates 
                    (hold ?a_1 ?a_2)
                    (pred_2)
                    (at ?a_1)
                )
                (:method m_1
                    :parameters (?p1 ?l1 ?l2 ?l3) 
                    :task (deliver_abs ?p1 ?l1 ?l2)
                    :precondition (oneof (and (not (hold ?p_2 ?p_3)) (at ?p_2)) (pred_5))
                    :subtasks (and
                        (pickup ?p1 ?l1)
                        (deliver_abs ?p1 ?l2 ?l3)
                    )
                )
             ) "

#guard semantic undefined_tests_undefined_predicate_method_precondition_test_0 none == some (.undefPredicate ⟨b!"pred_5", 10⟩)

def undefined_tests_undefined_method_parameters_test_0 : Bytes :=
  b!"(define (domain bal)
                (:predicates 
                    (hold ?a_1 ?a_2)
                    (pred_2)
                    (at ?a_1)
                )
                (:task deliver_abs :parameters (?p1 ?l1 ?l2))
                (:action pickup
                    :parameters(?p1 ?l1)
                    :precondition(hold ?p1 ?l1)
                )
                (:method m_1
                    :parameters (?p1 ?p2 ?p3 ?l1 ?l2 ?l3) 
                    :task (deliver_abs ?p1 ?l1 ?l2)
                    :precondition (oneof (and (not (hold ?p2 ?p3)) (at ?p5)))
                    :subtasks (and
                        (pickup ?p1 ?l1)
                        (deliver_abs ?p1 ?l2 ?l3)
                    )
                )
             ) "

#guard semantic undefined_tests_undefined_method_parameters_test_0 none == some (.undefParameter ⟨b!"p5", 15⟩)

def undefined_tests_undefined_subtask_test_0 : Bytes :=
  b!"(define (domain bal)
                (:predicates 
                    (hold ?a_1 ?a_2)
                    (pred_2)
                    (at ?a_1)
                )
                (:task c_1
                    :parameters (?p_1 ?p_2 ?p_3)
                )
                (:task c_2
                    :parameters (?p_1)
                )
                (:method m_1
                    :parameters (?p1 ?p2 ?p3 ?l1 ?l2 ?l3) 
                    :task (c_2 ?p1)
                    :precondition (oneof (and (not (hold ?p2 ?p3)) (at ?p2)) (pred_2))
                    :subtasks (and
                        (c_1 ?p1 ?l1 ?l2)
                        (c_2 ?p1)
                        (c_3)
                    )
                )
             ) "

#guard semantic undefined_tests_undefined_subtask_test_0 none == some (.undefSubtask ⟨b!"c_3", 20⟩)

def undefined_tests_inconsistent_subtask_arity_test_0 : Bytes :=
  b!"(define (domain bal)
                (:predicates 
                    (hold ?a_1 ?a_2)
                    (pred_2)
                    (at ?a_1)
                )
                (:task c_1
                    :parameters (?p_1 ?p_2 ?p_3)
                )
                (:task c_2
                    :parameters (?p_1)
                )
                (:method m_1
                    :parameters (?p1 ?p2 ?p3 ?l1 ?l2 ?l3) 
                    :task (c_1 ?p1 ?l1 ?l2)
                    :precondition (oneof (and (not (hold ?p2 ?p3)) (at ?p2)) (pred_2))
                    :subtasks (and
                        (c_1 ?p1 ?l1 ?l2)
                        (c_2 ?p1 ?l3)
                    )
                )
             ) "

#guard match semantic undefined_tests_inconsistent_subtask_arity_test_0 none with | some (.taskArity e) => e.symbol == b!"c_2" && e.expected == 1 && e.found == 2 | _ => false

def undefined_tests_undefined_type_compound_task_test_0 : Bytes :=
  b!"(define (domain bal)
                (:types t1)
                (:predicates 
                    (hold ?a_1 ?a_2)
                    (pred_2)
                    (at ?a_1)
                )
                (:task c_1
                    :parameters (?p_1 ?p_2 ?p_3 - t1 ?p4 - t5)
                )
             ) "

#guard semantic undefined_tests_undefined_type_compound_task_test_0 none == some (.undefType ⟨b!"t5", 9⟩)

def undefined_tests_undefined_type_predicate_test_0 : Bytes :=
  b!"(define (domain bal)
                (:types t1)
                (:predicates 
                    (pred_2)
                    (at ?a_1)
                    (hold ?a_1 ?a_2 - t1 ?a_3 - t2)
                )
             ) "

#guard semantic undefined_tests_undefined_type_predicate_test_0 none == some (.undefType ⟨b!"t2", 6⟩)

def undefined_tests_undefined_predicate_forall_quantification_test_0 : Bytes :=
  b!"(define (domain bal)
                (:predicates 
                    (hold ?a_1 ?a_2)
                    (pred_2)
                    (at ?a_1)
                )
                (:task c_1
                    :parameters (?p_1 ?p_2 ?p_3)
                )
                (:task c_2
                    :parameters ()
                )
                (:method m_1
                    :parameters () 
                    :task (c_2)
                    :precondition (forall (?pos - location) (and (not (at ?pos)) (wro ?pos)))
                    :subtasks (and
                        (c_1 ?p1 ?l1 ?l2)
                        (c_2)
                    )
                )
             ) "

#guard semantic undefined_tests_undefined_predicate_forall_quantification_test_0 none == some (.undefPredicate ⟨b!"wro", 16⟩)

def undefined_tests_undefined_method_task_test_0 : Bytes :=
  b!"(define (domain bal)
                (:predicates 
                    (hold ?a_1 ?a_2)
                    (pred_2)
                    (at ?a_1)
                )
                (:task c_1
                    :parameters (?p_1 ?p_2 ?p_3)
                )
                (:method m_1
                    :parameters (?p1 ?l1 ?l2 ?l3) 
                    :task (deliver_abs ?p1 ?l1 ?l2)
                    :subtasks (and
                        (c_1 ?p1 ?l1 ?l2)
                        (c_1 ?p1 ?l2 ?l3)
                    )
                )
             ) "

#guard semantic undefined_tests_undefined_method_task_test_0 none == some (.undefTask ⟨b!"deliver_abs", 12⟩)

/-! ### semantic_analyzer/tests/type_checking_tests.rs -/

def type_checking_tests_basic_type_checking_test_0 : Bytes :=
  b!"(define (domain bal)
            (:types
            t1 t2 - t3
            t4 t5 - t6
            t3 t6 - t7
            )
            (:predicates 
                (at ?l - t1)
            )
            (:action test1
            :parameters(?l1 - t2)
            :precondition (at ?l1)
            )
        ) "

#guard semantic type_checking_tests_basic_type_checking_test_0 none == some (.predArgType ⟨some b!"t1", some b!"t2", b!"l1", 12⟩)

def type_checking_tests_effect_type_checking_test_0 : Bytes :=
  b!"(define (domain bal)
            (:types
            t1 t2 - t3
            t4 t5 - t6
            t3 t6 - t7
            )
            (:predicates 
                (at ?l - t1)
            )
            (:action test1
            :parameters(?l1 ?l2 - t1)
            :precondition (at ?l2)
            :effect (not(at ?l1))
            )
        ) "

#guard accepted type_checking_tests_effect_type_checking_test_0

def type_checking_tests_inconsistent_predicate_arity_test_0 : Bytes :=
  b!"(define (domain bal)
            (:types
            t1 t2 - t3
            t4 t5 - t6
            t3 t6 - t7
            )
            (:predicates 
                (at ?l - t1)
            )
            (:action test1
            :parameters(?l1 ?l2 - t1)
            :precondition (at ?l2)
            :effect (and 
                (not (at ?l1 ?l2) )
            )
            )
        ) "

#guard semantic type_checking_tests_inconsistent_predicate_arity_test_0 none == some (.predArity ⟨b!"at", 1, 2, 14⟩)

def type_checking_tests_inconsistent_subtask_arity_test_0 : Bytes :=
  b!"(define (domain bal)
            (:types
            t1 t2 - t3
            t4 t5 - t6
            t3 t6 - t7
            )
            (:predicates 
                (at ?l - t7)
            )
            (:task abs :parameters(?a - t1))
            (:action test1
            :parameters(?l1 ?l2 - t5)
            :precondition (at ?l2)
            :effect (not(at ?l1))
            )
            (:method m1
                :parameters(?l2 - t1 ?l1 - t5)
                :task (abs ?l2)
                :tasks (and
                    (test1 ?l1 ?l1)
                    (test1 ?l1)
                )
            )
        ) "

#guard semantic type_checking_tests_inconsistent_subtask_arity_test_0 none == some (.taskArity ⟨b!"test1", 2, 1, 21⟩)

def type_checking_tests_method_prec_type_checking_test_0 : Bytes :=
  b!"(define (domain bal)
            (:types
            t1 t2 - t3
            t4 t5 - t6
            t3 t6 - t7
            )
            (:predicates 
                (at ?l - t7)
            )
            (:task abs :parameters(?a))
            (:action test1
            :parameters(?l1 ?l2 - t5)
            :precondition (at ?l2)
            :effect (not(at ?l1))
            )
            (:method m1
                :parameters(?l2 - t1 ?l1 - t5 ?l4)
                :task (abs ?l4)
                :precondition (at ?l2)
                :tasks (test1 ?l1 ?l1)
            )
        ) "

#guard accepted type_checking_tests_method_prec_type_checking_test_0

def type_checking_tests_method_subtask_checking_test_0 : Bytes :=
  b!"(define (domain bal)
            (:types
            t1 t2 - t3
            t4 t5 - t6
            t3 t6 - t7
            )
            (:predicates 
                (at ?l - t7)
            )
            (:task abs :parameters(?a - t1))
            (:action test1
            :parameters(?l1 ?l2 - t3)
            :precondition (at ?l2)
            :effect (not(at ?l1))
            )
            (:action test2
            :parameters(?l1 ?l2 - t2)
            :precondition (at ?l2)
            :effect (not(at ?l1))
            )
            (:method m1
                :parameters(?l2 - t1 ?l1 - t2 ?l3 - t6)
                :task (abs ?l2)
                :precondition ()
                :tasks (and
                    (test1 ?l1 ?l1)
                    (test2 ?l3 ?l1)
                )
            )
        ) "

#guard semantic type_checking_tests_method_subtask_checking_test_0 none == some (.taskArgType ⟨some b!"t2", some b!"t6", b!"l3", 27⟩)

/-! ### semantic_analyzer/tests/cycle_detection_tests.rs -/

def cycle_detection_tests_cyclic_method_ordering_test_0 : Bytes :=
  b!"(define (domain bal)
                (:predicates 
                    (hold ?a_1 ?a_2)
                    (pred_2)
                    (at ?a_1)
                )
                (:task deliver_abs_1 :parameters(?p1))
                (:task deliver_abs_2 :parameters(?p1))
                (:task deliver_abs_3 :parameters(?p1))
                (:task deliver_abs_4 :parameters(?p1))

                (:method m_1
                    :parameters (?p1 ?p2 ?p3 ?p4) 
                    :task (deliver_abs_1 ?p1)
                    :subtasks (and
                        (t1 (deliver_abs_1 ?p1))
                        (t2 (deliver_abs_2 ?p2))
                        (t3 (deliver_abs_3 ?p3))
                        (t4 (deliver_abs_4 ?p4))
                    )
                    :ordering (and
                        (< t1 t2)
                        (< t2 t3)
                        (< t3 t4)
                        (< t4 t1)
                    )
                )
             ) "

#guard semantic cycle_detection_tests_cyclic_method_ordering_test_0 none == some (.cyclicOrdering 21)

def cycle_detection_tests_cyclic_types_test_0 : Bytes :=
  b!"(define (domain bal)
            (:types
            t1 t2 - t3
            t4 t5 - t6
            t3 t6 - t7
            t7 - t1
            )
        ) "

#guard semantic cycle_detection_tests_cyclic_types_test_0 none == some (.cyclicType)

/-! ### semantic_analyzer/tests/warning_tests.rs -/

def warning_tests_primitive_refinement_test_0 : Bytes :=
  b!"(define (domain bal)
            (:predicates 
                (at ?l)
            )
            (:action p_1
            :parameters(?l1)
            :precondition (at ?l1)
            )
            (:action p_2
            :parameters(?l1)
            :precondition (at ?l1)
            )
            (:task abs_1 :parameters(?a))
            (:task abs_2 :parameters(?a))
            (:task abs_3 :parameters(?a))

            (:method m_1
                :parameters (?p1) 
                :task (abs_1 ?p1)
                :ordered-subtasks (and
                    (t4 (p_1 ?p1))
                )
            )
            (:method m_2
                :parameters (?p1) 
                :task (abs_2 ?p1)
                :ordered-subtasks ()
            )
        ) "

#guard warned warning_tests_primitive_refinement_test_0 == some [(b!"abs_3", 15)]

/-! ### semantic_analyzer/tests/problem_test.rs -/

def problem_test_p_undeclared_type_test_0 : Bytes :=
  b!"(define (problem p1)
            (:domain d)
            (:objects
                x1 x2 - place
                truck1 truck2 -locatable
                ve1 - car 
            )
            (:htn
                :parameters ()
                :ordered-subtasks (and
                    (abs_1)
                )
            )
    "

#guard semantic depot (some problem_test_p_undeclared_type_test_0) == some (.undefType ⟨b!"car", 6⟩)

def problem_test_p_undefined_object_test_0 : Bytes :=
  b!"(define (problem p1)
            (:domain d)
            (:objects
                x1 x2 - place
                truck1 truck2 -truck
            )
            (:htn
                :parameters ()
                :ordered-subtasks (and
                    (do_get_truck truck1 x3)
                )
            )
    "

#guard semantic depot (some problem_test_p_undefined_object_test_0) == some (.undefObject ⟨b!"x3", 10⟩)

def problem_test_p_duplicate_object_definition_test_0 : Bytes :=
  b!"
        (define (problem p1)
            (:domain d)
            (:objects
                x1 x2 - place
                truck1 truck2 -locatable
                x1 - object
            )
            (:htn
                :parameters ()
                :ordered-subtasks (and
                    (abs_1)
                )
            )
    "

#guard match semantic depot (some problem_test_p_duplicate_object_definition_test_0) with | some (.dupObject e) => e.symbol == b!"x1" | _ => false

def problem_test_p_cyclic_init_tn_ordering_test_0 : Bytes :=
  b!"(define (problem p1)
            (:domain d)
            (:objects
                x1 x2 - place
                truck1 truck2 -locatable
                crate1 crate2 - crate
            )
            (:htn
                :subtasks (and
                    (t1 (do_put_on crate1 truck1))
                    (t2 (do_put_on crate2 truck1))
                    (t3 (do_put_on crate2 truck1))
                )
                :ordering (and
                    (< t1 t2)
                    (< t2 t3)
                    (< t3 t1)
                )
            )
    "

#guard semantic depot (some problem_test_p_cyclic_init_tn_ordering_test_0) == some (.cyclicOrdering 14)

def problem_test_p_inconsistent_goal_predicate_test_0 : Bytes :=
  b!"
        (define (problem p1)
            (:domain d)
            (:objects
                x1 x2 - place
                truck1 truck2 -locatable
            )
            (:htn
                :parameters ()
                :ordered-subtasks ()
            )
            (:goal
                (and
                    (at truck1 x1)
                    (at truck1)
                )
            )
    "

#guard match semantic depot (some problem_test_p_inconsistent_goal_predicate_test_0) with | some (.predArity e) => e.symbol == b!"at" && e.expected == 2 && e.found == 1 | _ => false

def problem_test_p_inconsistent_init_predicate_test_0 : Bytes :=
  b!"
        (define (problem p1)
            (:domain d)
            (:objects
                x1 x2 - place
                truck1 truck2 -locatable
                crate1 - crate
            )
            (:htn
                :parameters ()
                :ordered-subtasks ()
            )
            (:init
                (at truck1 crate1)
            )
    "

#guard match semantic depot (some problem_test_p_inconsistent_init_predicate_test_0) with | some (.predArgType e) => e.var == b!"at" | _ => false

def problem_test_p_inconsistent_subtask_test_0 : Bytes :=
  b!"
        (define (problem p1)
            (:domain d)
            (:objects
                x1 x2 - place
                truck1 truck2 -locatable
                crate1 crate2 - crate
            )
            (:htn
                :parameters ()
                :subtasks (and
                    (t1 (do_get_truck truck1 truck2))
                )
            )
    "

#guard match semantic depot (some problem_test_p_inconsistent_subtask_test_0) with | some (.taskArgType e) => e.var == b!"do_get_truck" | _ => false

/-! ### semantic_analyzer/tests/tdg_tests.rs -/

def tdg_tests_tdg_correctness_test_0 : Bytes :=
  b!"(define (domain bal)
            (:predicates 
                (at ?l)
            )
            (:action p_1
            :parameters(?l1)
            :precondition (at ?l1)
            )
            (:action p_2
            :parameters(?l1)
            :precondition (at ?l1)
            )
            (:task abs_1 :parameters(?a))
            (:task abs_2 :parameters(?a))
            (:task abs_3 :parameters(?a))

            (:method m_1
                :parameters (?p1) 
                :task (abs_1 ?p1)
                :ordered-subtasks (and
                    (t1 (abs_1 ?p1))
                    (t2 (abs_2 ?p1))
                    (t3 (abs_3 ?p1))
                    (t4 (p_1 ?p1))
                )
            )
            (:method m_2
                :parameters (?p1) 
                :task (abs_1 ?p1)
                :ordered-subtasks ()
            )
        ) "

def tdg_tests_tdg_correctness_test_1 : Bytes :=
  b!"
        (define (problem p-1-2-2)
            (:domain barman_htn)
            (:htn
                :parameters ()
                :ordered-subtasks (and
                    (abs_1)
                )
            )
    "

#guard reached tdg_tests_tdg_correctness_test_0 b!"abs_1" == some ([b!"p_1"], [b!"abs_1", b!"abs_2", b!"abs_3"], true) && (reached tdg_tests_tdg_correctness_test_0 b!"p_2").map (fun r => (r.1, r.2.2)) == some ([b!"p_2"], false)

def tdg_tests_tdg_non_recursive_test_0 : Bytes :=
  b!"(define (domain bal)
            (:predicates 
                (at ?l)
            )
            (:action p_1
            :parameters(?l1)
            :precondition (at ?l1)
            )
            (:action p_2
            :parameters(?l1)
            :precondition (at ?l1)
            )
            (:task abs_1 :parameters(?a))
            (:task abs_2 :parameters(?a))
            (:task abs_3 :parameters(?a))

            (:method m_1
                :parameters (?p1) 
                :task (abs_1 ?p1)
                :ordered-subtasks (and
                    (t2 (abs_2 ?p1))
                    (t3 (abs_3 ?p1))
                    (t4 (p_1 ?p1))
                )
            )
        ) "

def tdg_tests_tdg_non_recursive_test_1 : Bytes :=
  b!"
        (define (problem p-1-2-2)
            (:domain barman_htn)
            (:htn
                :parameters ()
                :ordered-subtasks (and
                    (abs_1)
                )
            )
    "

#guard match recursion tdg_tests_tdg_non_recursive_test_0 with | some .nonRecursive => true | _ => false

def tdg_tests_tdg_recursive_test_0 : Bytes :=
  b!"(define (domain bal)
            (:predicates 
                (at ?l)
            )
            (:action p_1
            :parameters(?l1)
            :precondition (at ?l1)
            )
            (:action p_2
            :parameters(?l1)
            :precondition (at ?l1)
            )
            (:task abs_1 :parameters(?a))
            (:task abs_2 :parameters(?a))
            (:task abs_3 :parameters(?a))

            (:method m_1
                :parameters (?p1) 
                :task (abs_1 ?p1)
                :ordered-subtasks (and
                    (t0 (p_2 ?p1))
                    (t1 (abs_2 ?p1))
                    (t2 (abs_3 ?p1))
                    (t3 (abs_1 ?p1))
                    (t4 (p_1 ?p1))
                )
            )
        ) "

def tdg_tests_tdg_recursive_test_1 : Bytes :=
  b!"
        (define (problem p-1-2-2)
            (:domain barman_htn)
            (:htn
                :parameters ()
                :ordered-subtasks (and
                    (abs_1)
                )
            )
    "

#guard match recursion tdg_tests_tdg_recursive_test_0 with | some (.recursive _) => true | _ => false

def tdg_tests_tdg_grow_and_shrink_cycle_test_0 : Bytes :=
  b!"(define (domain bal)
            (:predicates 
                (at ?l)
            )
            (:action p_1
            :parameters(?l1)
            :precondition (at ?l1)
            )
            (:action p_2
            :parameters(?l1)
            :precondition (at ?l1)
            )
            (:task abs_1 :parameters(?a))
            (:task abs_2 :parameters(?a))
            (:task abs_3 :parameters(?a))

            (:method m_1
                :parameters (?p1) 
                :task (abs_1 ?p1)
                :ordered-subtasks (and
                    (t0 (abs_3 ?p1))
                    (t1 (abs_1 ?p1))
                    (t2 (abs_3 ?p1))
                    (t3 (abs_3 ?p1))
                )
            )

            (:method m_2
                :parameters (?p1) 
                :task (abs_3 ?p1)
                :ordered-subtasks ()
            )
        ) "

def tdg_tests_tdg_grow_and_shrink_cycle_test_1 : Bytes :=
  b!"
        (define (problem p-1-2-2)
            (:domain barman_htn)
            (:htn
                :parameters ()
                :ordered-subtasks (and
                    (abs_1)
                )
            )
    "

#guard match recursion tdg_tests_tdg_grow_and_shrink_cycle_test_0 with | some (.growAndShrink _) => true | _ => false

def tdg_tests_tdg_grow_and_shrink_cycle_partial_order_1_test_0 : Bytes :=
  b!"(define (domain bal)
            (:predicates 
                (at ?l)
            )
            (:action p_1
            :parameters(?l1)
            :precondition (at ?l1)
            )
            (:action p_2
            :parameters(?l1)
            :precondition (at ?l1)
            )
            (:task abs_1 :parameters(?a))
            (:task abs_2 :parameters(?a))
            (:task abs_3 :parameters(?a))

            (:method m_1
                :parameters (?p1) 
                :task (abs_1 ?p1)
                :subtasks (and
                    (t0 (abs_3 ?p1))
                    (t1 (abs_1 ?p1))
                    (t2 (abs_3 ?p1))
                    (t3 (abs_3 ?p1))
                )
                :ordering (and
                    (< t0 t1)
                    (< t1 t2)
                    (< t2 t3)
                )
            )

            (:method m_2
                :parameters (?p1) 
                :task (abs_3 ?p1)
                :subtasks ()
            )
        ) "

def tdg_tests_tdg_grow_and_shrink_cycle_partial_order_1_test_1 : Bytes :=
  b!"
        (define (problem p-1-2-2)
            (:domain barman_htn)
            (:htn
                :parameters ()
                :ordered-subtasks (and
                    (abs_1)
                )
            )
    "

#guard match recursion tdg_tests_tdg_grow_and_shrink_cycle_partial_order_1_test_0 with | some (.growAndShrink _) => true | _ => false

def tdg_tests_tdg_growing_cycle_test_0 : Bytes :=
  b!"(define (domain bal)
            (:predicates 
                (at ?l)
            )
            (:action p_1
            :parameters(?l1)
            :precondition (at ?l1)
            )
            (:action p_2
            :parameters(?l1)
            :precondition (at ?l1)
            )
            (:task abs_1 :parameters(?a))
            (:task abs_2 :parameters(?a))
            (:task abs_3 :parameters(?a))

            (:method m_1
                :parameters (?p1) 
                :task (abs_1 ?p1)
                :ordered-subtasks (and
                    (t1 (abs_1 ?p1))
                    (t2 (abs_3 ?p1))
                    (t3 (abs_1 ?p1))
                    (t4 (p_1 ?p1))
                )
            )

            (:method m_2
                :parameters (?p1) 
                :task (abs_3 ?p1)
                :ordered-subtasks (and
                    (t1 (p_1 ?p2))
                    (t2 (p_1 ?p2))
                )
            )
        ) "

def tdg_tests_tdg_growing_cycle_test_1 : Bytes :=
  b!"
        (define (problem p-1-2-2)
            (:domain barman_htn)
            (:htn
                :parameters ()
                :ordered-subtasks (and
                    (abs_1)
                )
            )
    "

#guard match recursion tdg_tests_tdg_growing_cycle_test_0 with | some (.growingEmptyPrefix _) => true | _ => false

def tdg_tests_satelite_domain_cycle_test_0 : Bytes :=
  b!"(define (domain bal)
            (:predicates 
                (at ?l)
            )
            (:action p_1
            :parameters(?l1)
            :precondition (at ?l1)
            )
            (:action p_2
            :parameters(?l1)
            :precondition (at ?l1)
            )

            (:task do_prepare :parameters (?s - satellite ?i - instrument ?d - direction) )
            (:task do_switching :parameters (?s - satellite ?i - instrument) )
            (:task do_calibration :parameters (?s - satellite ?i - instrument ?d - direction) )
            (:task do_turning :parameters (?s - satellite ?d - direction) )

            (:method m1_do_prepare
                :parameters ( ?s - satellite  ?i - instrument  ?d - direction )
                :task (do_prepare ?s ?i ?d)
                :precondition ()
                :ordered-subtasks(and (t1 (do_switching ?s ?i)) (t2 (do_turning ?s ?d)))
            )
            (:method m3_do_switching
                :parameters ( ?s - satellite  ?i - instrument ?d - direction )
                :task (do_switching ?s ?i)
                :precondition (and (on_board ?i ?s) (power_avail ?s))
                :ordered-subtasks(and (t1 (switch_on ?i ?s)) (t2 (do_calibration ?s ?i ?d)))
            )
            (:method m5_do_calibration
                :parameters ( ?s - satellite  ?i - instrument  ?d - direction )
                :task (do_calibration ?s ?i ?d)
                :precondition (and (not(calibrated ?i)))
                :ordered-subtasks(and (t1 (do_prepare ?s ?i ?d)) (t2 (calibrate ?s ?i ?d)))
            )

            (:action switch_on
                :parameters (?i - instrument ?s - satellite)
                :precondition (and (on_board ?i ?s) (power_avail ?s))
                :effect (and (power_on ?i) (not (calibrated ?i)) (not (power_avail ?s)))
            )
            (:action calibrate
                :parameters (?s - satellite ?i - instrument ?d - direction)
                :precondition (and (on_board ?i ?s) (calibration_target ?i ?d) (pointing ?s ?d) (power_on ?i))
                :effect (calibrated ?i)
            )
        ) "

def tdg_tests_satelite_domain_cycle_test_1 : Bytes :=
  b!"
        (define (problem p-1-2-2)
            (:domain barman_htn)
            (:htn
                :parameters ()
                :ordered-subtasks (and
                    (abs_1)
                )
            )
    "

#guard match recursion tdg_tests_satelite_domain_cycle_test_0 with | some (.recursive _) => true | _ => false

def tdg_tests_tdg_nullables_test_0 : Bytes :=
  b!"(define (domain bal)
            (:predicates 
                (at ?l)
            )
            (:action p_1
            :parameters(?l1)
            :precondition (at ?l1)
            )
            (:action p_2
            :parameters(?l1)
            :precondition (at ?l1)
            )
            (:task abs_1 :parameters(?a))
            (:task abs_2 :parameters(?a))
            (:task abs_3 :parameters(?a))

            (:method m_1
                :parameters (?p1) 
                :task (abs_1 ?p1)
                :ordered-subtasks (and
                    (t0 (abs_3 ?p1))
                    (t1 (abs_2 ?p1))
                    (t2 (abs_3 ?p1))
                    (t3 (abs_3 ?p1))
                )
            )

            (:method m_2
                :parameters (?p1) 
                :task (abs_2 ?p1)
                :ordered-subtasks ()
            )

            (:method m_3
                :parameters (?p1) 
                :task (abs_3 ?p1)
                :ordered-subtasks (
                    abs_2 ?p1
                )
            )

            (:method m_3
                :parameters (?1) 
                :task (abs_3 ?p1)
                :ordered-subtasks (and
                    (p_1 ?l1)
                    (p_2 ?l1)
                )
            )
        ) "

def tdg_tests_tdg_nullables_test_1 : Bytes :=
  b!"
        (define (problem p-1-2-2)
            (:domain barman_htn)
            (:htn
                :parameters ()
                :ordered-subtasks (and
                    (abs_1)
                )
            )
    "

#guard sameNames (nullables tdg_tests_tdg_nullables_test_0) [b!"abs_1", b!"abs_2", b!"abs_3"]

end Verif.Conformance
