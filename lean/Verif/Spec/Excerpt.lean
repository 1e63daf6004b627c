import Verif.Model.AST

/-! Excerpts of domains and problems: a few declarations of one sort, with what they are checked against. -/

namespace Verif.Spec

open Verif

/-- `Excerpt d d'`: the domain `d'` consists of at most two requirements of `d`; or of its types; or of its types and at most
two of its predicates or tasks; or of its types, constants and predicates and at most two of its actions; or of
everything but the requirements, the functions and all but at most two methods. -/
inductive Excerpt (d : DomainAST) : DomainAST → Prop
  | requirements {rs} : rs.Sublist d.requirements → rs.length ≤ 2 →
      Excerpt d { DomainAST.new d.name with requirements := rs }
  | types : Excerpt d { DomainAST.new d.name with types := d.types }
  | predicates {ps} : ps.Sublist d.predicates → ps.length ≤ 2 →
      Excerpt d { DomainAST.new d.name with types := d.types, predicates := ps }
  | tasks {ts} : ts.Sublist d.tasks → ts.length ≤ 2 →
      Excerpt d { DomainAST.new d.name with types := d.types, tasks := ts }
  | actions {as} : as.Sublist d.actions → as.length ≤ 2 →
      Excerpt d { DomainAST.new d.name with
        types := d.types, constants := d.constants, predicates := d.predicates, actions := as }
  | methods {ms} : ms.Sublist d.methods → ms.length ≤ 2 →
      Excerpt d { d with requirements := [], functions := [], methods := ms }

/-- `ExcerptP p p'`: the problem `p'` consists of at most two objects of `p`; or of the objects and one fact, the initial
task network, or the goal. -/
inductive ExcerptP (p : ProblemAST) : ProblemAST → Prop
  | objects {os} : os.Sublist p.objects → os.length ≤ 2 → ExcerptP p { ProblemAST.new with objects := os }
  | fact {a} : a ∈ p.initState → ExcerptP p { ProblemAST.new with objects := p.objects, initState := [a] }
  | network : ExcerptP p { ProblemAST.new with objects := p.objects, initTn := p.initTn }
  | goal : ExcerptP p { ProblemAST.new with objects := p.objects, goal := p.goal }

end Verif.Spec
