import Verif.Spec.WellFormed

/-! Objects of a problem that become constants of the domain, and constants that become objects. -/

namespace Verif.Spec

open Verif

/-- `d` and `p` are `d'` and `p'`, except that the constants `cs` of `d'` are objects of `p`.  No constant of `d'` is declared twice,
and no parameter of the initial task network has the name of one of the moved constants. -/
structure Moved (cs : List Symbol) (d : DomainAST) (p : ProblemAST) (d' : DomainAST) (p' : ProblemAST) : Prop where
  domain : d' = { d with constants := d'.constants }
  problem : p' = { p with objects := p'.objects }
  constants : (constantsOf d').Perm (constantsOf d ++ cs)
  objects : p.objects.Perm (p'.objects ++ cs)
  once : ((constantsOf d').map (·.name)).Nodup
  params : ∀ h, p.initTn = some h → ∀ v ∈ h.params.getD [], ∀ c ∈ cs, v.name ≠ c.name

end Verif.Spec
