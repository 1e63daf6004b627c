import Verif.Spec.Renaming
import Verif.Spec.WellFormed

/-!
Changes of a domain or problem: other orders of the declarations, additional declarations, and parts that carry no
meaning for the verdict.
-/

namespace Verif.Spec

open Verif

/-- The same declarations in another order. -/
structure Rearranged (d d' : DomainAST) : Prop where
  requirements : d.requirements.Perm d'.requirements
  types : (typesOf d).Perm (typesOf d')
  constants : (constantsOf d).Perm (constantsOf d')
  predicates : d.predicates.Perm d'.predicates
  tasks : d.tasks.Perm d'.tasks
  actions : d.actions.Perm d'.actions
  methods : d.methods.Perm d'.methods

/-- The same objects and facts in another order. -/
structure RearrangedP (p p' : ProblemAST) : Prop where
  objects : p.objects.Perm p'.objects
  init : p.initState.Perm p'.initState
  goal : p.goal = p'.goal
  htn : p.initTn = p'.initTn

/-- The blocks of a problem, none of which overrides another one. -/
structure Once (bs : List PBlock) : Prop where
  htn : (bs.filterMap PBlock.htn?).length ≤ 1
  init : (bs.filterMap PBlock.init?).length ≤ 1
  goal : (bs.filterMap PBlock.goal?).length ≤ 1

/-- No name is declared twice as a constant. -/
def ConstantsOnce (d : DomainAST) : Prop := ((constantsOf d).map (·.name)).Nodup

/-- `d'` has all declarations of `d`, and none of the additional actions has the name of a task of `d`. -/
structure Extends (d d' : DomainAST) : Prop where
  types : ∀ x ∈ typesOf d, x ∈ typesOf d'
  constants : ∀ x ∈ constantsOf d, x ∈ constantsOf d'
  predicates : ∀ x ∈ d.predicates, x ∈ d'.predicates
  tasks : ∀ x ∈ d.tasks, x ∈ d'.tasks
  actions : ∀ x ∈ d.actions, x ∈ d'.actions
  methods : ∀ x ∈ d.methods, x ∈ d'.methods
  fresh : ∀ a ∈ d'.actions, a ∉ d.actions → ∀ t ∈ d.tasks, t.name ≠ a.name

/-- What has to be checked about a domain that extends a well-formed one: the additional declarations, and that no name
is repeated. -/
structure Additions (d d' : DomainAST) : Prop where
  requirements : d'.requirements.Nodup
  types : Acyclic (DirectSub (typesOf d'))
  predicates : (d'.predicates.map (·.name)).Nodup
  predicateTypes : ∀ p ∈ d'.predicates, p ∉ d.predicates → TypesKnown (typesOf d') p.vars
  tasks : (d'.tasks.map (·.name)).Nodup
  taskTypes : ∀ t ∈ d'.tasks, t ∉ d.tasks → TypesKnown (typesOf d') t.params
  actionNames : (d'.actions.map (·.name)).Nodup
  actions : ∀ a ∈ d'.actions, a ∉ d.actions → ActionOk d' a
  methodNames : (d'.methods.map (·.name.name)).Nodup
  methods : ∀ m ∈ d'.methods, m ∉ d.methods → MethodOk d' m

/-- A network without variable constraints. -/
def coreHtn (h : HTN) : HTN := { h with constraints := none }

/-- The parts of a domain that matter, apart from repeated requirements: all lines, the name, the requirements, the
functions and the variable constraints are left out. -/
def coreDomain (d : DomainAST) : DomainAST :=
  { rnDomain id d with
    name := []
    requirements := []
    functions := []
    methods := (rnDomain id d).methods.map fun m => { m with tn := coreHtn m.tn } }

/-- The parts of a problem that matter. -/
def coreProblem (p : ProblemAST) : ProblemAST :=
  { rnProblem id p with
    requirements := []
    initTn := (rnProblem id p).initTn.map fun i => { i with tn := coreHtn i.tn } }

end Verif.Spec
